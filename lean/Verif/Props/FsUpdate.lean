import Verif.Model.FsUpdate
import Verif.Props.FsConc
/-
Property C162: a file is replaced by Write to another file and Rename.
-/
namespace Gost.Fs
open Os

/-! ### Specification -/

/-- The entry of a name in a directory. -/
def Entry (fs : FS) (d : Nat) (n : Name) (x : Option Nat) : Prop :=
  ∃ (up : Nat) (es : List (Name × Nat)), fs.nodes[d]? = some (.dir up es) ∧ es.lookup n = x

/-- The path names the entry `n` of the directory `d`. -/
def Place (fs : FS) (p : Path) (d : Nat) (n : Name) : Prop := ∃ (up : Nat) (es : List (Name × Nat)), parent fs p = .ok (d, up, es, n)

/-- The calls at the start: any number of Reads of `path`, and of updates of it that write to files of their own, which are not there yet. -/
structure Fresh (fs : FS) (path : Path) (js : List Job) : Prop where
  kinds : ∀ j ∈ js, j = .read path ∨ ∃ tmp data, j = .update tmp path data ∧ data.length ≤ 2 ^ 30 ∧
    ∃ d n, Place fs tmp d n ∧ Entry fs d n none
  apart : ∀ (k k' : Nat) (t t' : Path) (data data' : List UInt8) (d : Nat) (n : Name), js[k]? = some (.update t path data) →
    js[k']? = some (.update t' path data') → Place fs t d n → Place fs t' d n → k = k'

/-- The update number `k` is to store these data, and has returned Ok. -/
def Done (path : Path) (js js' : List Job) (data : List UInt8) : Prop :=
  ∃ (k : Nat) (tmp : Path), js[k]? = some (.update tmp path data) ∧ js'[k]? = some (.updated (Res.mkOk ()))

/-! ### Directories -/

theorem Entry.unique {fs : FS} {d : Nat} {n : Name} {x y : Option Nat} (h : Entry fs d n x) (h' : Entry fs d n y) : x = y := by
  obtain ⟨up, es, h1, h2⟩ := h
  obtain ⟨up', es', h1', h2'⟩ := h'
  rw [h1] at h1'
  cases h1'
  rw [← h2, ← h2']

theorem Place.unique {fs : FS} {p : Path} {d d' : Nat} {n n' : Name} (h : Place fs p d n) (h' : Place fs p d' n') : d = d' ∧ n = n' := by
  obtain ⟨up, es, h⟩ := h
  obtain ⟨up', es', h'⟩ := h'
  rw [h] at h'
  cases h'
  exact ⟨rfl, rfl⟩

/-- Directories and links are kept. -/
theorem passable_ext {keep : Nat → Prop} {fs fs' : FS} (x : Ext keep fs fs') {k : Nat} (h : fs.passable k) : fs'.passable k := by
  rcases h with ⟨up, es, h⟩ | ⟨t, h⟩
  · obtain ⟨es', h', _⟩ := x.dirs k up es h
    exact .inl ⟨up, es', h'⟩
  · exact .inr ⟨t, x.links k t h⟩

/-- The skeleton of a file system: its directories and links, and the entries that lead to them. -/
theorem skel_trans {fs0 fs fs' : FS} (x : Ext fs0.passable fs0 fs) (y : Ext fs.passable fs fs') : Ext fs0.passable fs0 fs' :=
  x.trans (y.mono fun _ h => passable_ext x h)

theorem Place.parent {fs0 fs : FS} {p : Path} {d : Nat} {n : Name} (h : Place fs0 p d n) (x : Ext fs0.passable fs0 fs) {e : Option Nat}
    (he : Entry fs d n e) : ∃ (up : Nat) (es : List (Name × Nat)), Os.parent fs p = .ok (d, up, es, n) ∧ fs.nodes[d]? = some (.dir up es) ∧ es.lookup n = e := by
  obtain ⟨up0, es0, h⟩ := h
  obtain ⟨hd, h1, h2, hn, hw⟩ := parent_ok h
  obtain ⟨up, es, hd', hl⟩ := he
  refine ⟨up, es, ?_, hd', hl⟩
  have hw' := walk_ext x (fun _ h => h) (.inl ⟨_, _, hd⟩) hw
  rw [← x.cwd, ← x.limit] at hw'
  unfold Os.parent
  have hg : p.names.getLast? = some n := by rw [hn]; simp
  rw [hg]
  simp only
  rw [if_neg (fun e => e.elim h1 h2), hw']
  simp only [hd']

/-- Where a path leads. -/
theorem Place.resolve {fs0 fs : FS} {p : Path} {d : Nat} {n : Name} (h : Place fs0 p d n) (x : Ext fs0.passable fs0 fs) (f : Bool)
    {i : Nat} (he : Entry fs d n (some i)) {c : List UInt8} (hi : fs.nodes[i]? = some (.file c)) : Os.resolve fs f p = .found i := by
  obtain ⟨up, es, hp, hd, hl⟩ := h.parent x he
  obtain ⟨_, h1, h2, hn, hw⟩ := parent_ok hp
  obtain ⟨k, hk⟩ := resolve_parent (f := f) hn hw
  rw [hk]
  exact walk_last hd h1 h2 hl fun _ t ht => by rw [hi] at ht; cases ht

theorem Place.absent {fs0 fs : FS} {p : Path} {d : Nat} {n : Name} (h : Place fs0 p d n) (x : Ext fs0.passable fs0 fs) (f : Bool)
    (he : Entry fs d n none) : Os.resolve fs f p = .absent d n := by
  obtain ⟨up, es, hp, hd, hl⟩ := h.parent x he
  obtain ⟨_, h1, h2, hn, hw⟩ := parent_ok hp
  obtain ⟨k, hk⟩ := resolve_parent (f := f) hn hw
  rw [hk]
  exact walk_last_absent hd h1 h2 hl

/-- One directory gets other entries. -/
theorem entry_setDir {fs : FS} {d up : Nat} {es es' : List (Name × Nat)} (hd : fs.nodes[d]? = some (.dir up es)) {n : Name}
    (hes : ∀ m, m ≠ n → es'.lookup m = es.lookup m) {d' : Nat} {n' : Name} {x : Option Nat} (h : Entry fs d' n' x)
    (hne : ¬(d' = d ∧ n' = n)) : Entry (fs.set d (.dir up es')) d' n' x := by
  obtain ⟨up', es0, h1, h2⟩ := h
  by_cases hdd : d' = d
  · subst hdd
    rw [hd] at h1
    cases h1
    refine ⟨up, es', ?_, ?_⟩
    · show (fs.nodes.set d' _)[d']? = _
      rw [get_set hd, if_pos rfl]
    · rw [hes n' fun e => hne ⟨rfl, e⟩, h2]
  · refine ⟨up', es0, ?_, h2⟩
    show (fs.nodes.set d _)[d']? = _
    rw [get_set hd, if_neg hdd, h1]

/-- What rename(2) does to a file when the new name is that of another file. -/
theorem sysRename_file {fs : FS} {a b : Path} {d up d' up' i j : Nat} {es es' : List (Name × Nat)} {n n' : Name} {data c : List UInt8}
    (ha : Os.parent fs a = .ok (d, up, es, n)) (hb : Os.parent fs b = .ok (d', up', es', n')) (hl : es.lookup n = some i)
    (hl' : es'.lookup n' = some j) (hij : i ≠ j) (hi : fs.nodes[i]? = some (.file data)) (hj : fs.nodes[j]? = some (.file c)) :
    ∃ fs', sysRename fs a b = .ok fs' ∧ Ext fs.passable fs fs' ∧ Entry fs' d' n' (some i) ∧
      (∀ (k : Nat) (x : List UInt8), fs.nodes[k]? = some (.file x) → fs'.nodes[k]? = some (.file x)) ∧
      (∀ (d0 : Nat) (n0 : Name) (x : Option Nat), Entry fs d0 n0 x → ¬(d0 = d ∧ n0 = n) → ¬(d0 = d' ∧ n0 = n') → Entry fs' d0 n0 x) := by
  obtain ⟨hd, -⟩ := parent_ok ha
  obtain ⟨hd', -⟩ := parent_ok hb
  have npass : ∀ {k : Nat} {x : List UInt8}, fs.nodes[k]? = some (.file x) → ¬ fs.passable k := by
    rintro k x hk (⟨u, e, h⟩ | ⟨t, h⟩) <;> rw [hk] at h <;> cases h
  have hne : ¬(d' = d ∧ n' = n) := by
    rintro ⟨rfl, rfl⟩
    rw [hd] at hd'
    cases hd'
    rw [hl] at hl'
    exact hij (Option.some.inj hl')
  have hs : sysRename fs a b = .ok (reparent (setEntry (dropEntry fs d n) d' n' i) i d') := by
    unfold sysRename
    rw [ha, hb]
    simp only [hl, hl', hi, hj]
    rw [if_neg (by intro e; exact hij (Option.some.inj e).symm)]
    rfl
  -- the first directory
  have e1 : dropEntry fs d n = fs.set d (.dir up (es.filter fun e => e.1 ≠ n)) := by unfold dropEntry; rw [hd]
  have hes1 : ∀ m, m ≠ n → (es.filter fun e => e.1 ≠ n).lookup m = es.lookup m := fun m hm => by rw [lookup_filter, if_neg hm]
  have x1 : Ext fs.passable fs (dropEntry fs d n) := by
    rw [e1]
    refine ext_dir hd fun m k hm hk => ?_
    rw [hes1 m (by rintro rfl; rw [hl] at hm; cases hm; exact npass hi hk), hm]
  have f1 : ∀ (k : Nat) (x : List UInt8), fs.nodes[k]? = some (.file x) → (dropEntry fs d n).nodes[k]? = some (.file x) :=
    fun k c hc => e1 ▸ set_dir_file hd hc
  have en1 : ∀ (d0 : Nat) (n0 : Name) (x : Option Nat), Entry fs d0 n0 x → ¬(d0 = d ∧ n0 = n) → Entry (dropEntry fs d n) d0 n0 x :=
    fun d0 n0 x h h' => e1 ▸ entry_setDir hd hes1 h h'
  -- the second one
  obtain ⟨up1, es1, hd1, hl1⟩ := en1 d' n' _ ⟨up', es', hd', hl'⟩ hne
  have e2 : setEntry (dropEntry fs d n) d' n' i =
      (dropEntry fs d n).set d' (.dir up1 (es1.filter (fun e => e.1 ≠ n') ++ [(n', i)])) := by unfold setEntry; rw [hd1]
  have hes2 : ∀ m, m ≠ n' → (es1.filter (fun e => e.1 ≠ n') ++ [(n', i)]).lookup m = es1.lookup m := fun m hm => by
    rw [lookup_concat, lookup_filter, if_neg hm, if_neg hm, Option.or_none]
  have x2 : Ext fs.passable (dropEntry fs d n) (setEntry (dropEntry fs d n) d' n' i) := by
    rw [e2]
    refine ext_dir hd1 fun m k hm hk => ?_
    rw [hes2 m (by rintro rfl; rw [hl1] at hm; cases hm; exact npass hj hk), hm]
  have f2 : ∀ (k : Nat) (x : List UInt8), fs.nodes[k]? = some (.file x) →
      (setEntry (dropEntry fs d n) d' n' i).nodes[k]? = some (.file x) := fun k c hc => e2 ▸ set_dir_file hd1 (f1 k c hc)
  have e3 : reparent (setEntry (dropEntry fs d n) d' n' i) i d' = setEntry (dropEntry fs d n) d' n' i := by
    unfold reparent; rw [f2 i data hi]
  refine ⟨_, by rw [hs, e3], x1.trans x2, ?_, f2, fun d0 n0 x h h1 h2 => e2 ▸ entry_setDir hd1 hes2 (en1 d0 n0 x h h1) h2⟩
  rw [e2]
  refine ⟨up1, _, by show ((dropEntry fs d n).nodes.set d' _)[d']? = _; rw [get_set hd1, if_pos rfl], ?_⟩
  rw [lookup_concat, lookup_filter, if_pos rfl, if_pos rfl]
  rfl

/-- What os.Create does with a new name. -/
theorem create_new {fs0 fs : FS} {p : Path} {d : Nat} {n : Name} (h : Place fs0 p d n) (x : Ext fs0.passable fs0 fs)
    (he : Entry fs d n none) : ∃ fs', create none fs p = .ok (fs.nodes.length, fs') ∧ Ext fs.passable fs fs' ∧
      Entry fs' d n (some fs.nodes.length) ∧ fs'.nodes[fs.nodes.length]? = some (.file []) ∧
      (∀ (k : Nat) (x : List UInt8), fs.nodes[k]? = some (.file x) → fs'.nodes[k]? = some (.file x)) ∧
      (∀ (d0 : Nat) (n0 : Name) (x : Option Nat), Entry fs d0 n0 x → ¬(d0 = d ∧ n0 = n) → Entry fs' d0 n0 x) := by
  have hr := h.absent x true he
  obtain ⟨up, es, hd, hl⟩ := he
  have hget := fun k => addNode_get (n := n) (node := Node.file []) hd k
  have hlt : ∀ {k : Nat} {x : Node}, fs.nodes[k]? = some x → k ≠ fs.nodes.length := fun h => Nat.ne_of_lt (lt_of_node h)
  refine ⟨addNode fs d up es n (.file []), ?_, (ext_addNode hd fun t h => by cases h).mono fun _ _ => trivial, ⟨up, _, by
      rw [hget, if_neg (hlt hd), if_pos rfl], by rw [lookup_concat, hl, if_pos rfl]; rfl⟩, by rw [hget, if_pos rfl], fun k c hk => ?_,
    fun d0 n0 y hy hne => ?_⟩
  · unfold create
    simp only [hr, hd]
  · rw [hget, if_neg (hlt hk), if_neg (by rintro rfl; rw [hd] at hk; cases hk), hk]
  · obtain ⟨up0, es0, h1, h2⟩ := hy
    by_cases hdd : d0 = d
    · subst hdd
      rw [hd] at h1
      cases h1
      refine ⟨up, _, by rw [hget, if_neg (hlt hd), if_pos rfl], ?_⟩
      rw [lookup_concat, if_neg (fun e => hne ⟨rfl, e⟩), h2, Option.or_none]
    · exact ⟨up0, es0, by rw [hget, if_neg (hlt h1), if_neg hdd, h1], h2⟩

theorem entry_file {fs : FS} {i : Nat} {c c' : List UInt8} (hi : fs.nodes[i]? = some (.file c)) {d : Nat} {n : Name} {x : Option Nat}
    (h : Entry fs d n x) : Entry (fs.set i (.file c')) d n x := by
  obtain ⟨up, es, h1, h2⟩ := h
  refine ⟨up, es, ?_, h2⟩
  rw [set_node hi, if_neg (by rintro rfl; rw [hi] at h1; cases h1), h1]
/-! ### The invariant -/

/-- What is known of the call number `k`; `own` are the inodes of the updates under way. -/
inductive JobOk (fs0 : FS) (path : Path) (old : List UInt8) (js0 : List Job) (fs : FS) (js : List Job) (own : Nat → Option Nat) (k : Nat) :
    Job → Prop
  | read (ho : own k = none) : JobOk fs0 path old js0 fs js own k (.read path)
  | opened (f : Nat) (c : List UInt8) (ho : own k = none) (hf : fs.nodes[f]? = some (.file c)) (hown : ∀ k', own k' ≠ some f)
      (hc : c = old ∨ Done path js0 js c) : JobOk fs0 path old js0 fs js own k (.opened f)
  | sized (f : Nat) (c : List UInt8) (ho : own k = none) (hf : fs.nodes[f]? = some (.file c)) (hown : ∀ k', own k' ≠ some f)
      (hc : c = old ∨ Done path js0 js c) : JobOk fs0 path old js0 fs js own k (.sized f c.length)
  | got (c : List UInt8) (ho : own k = none) (hc : c = old ∨ Done path js0 js c) :
      JobOk fs0 path old js0 fs js own k (.got (Res.mkOk c))
  | gotErr (e : Errno) (ho : own k = none) : JobOk fs0 path old js0 fs js own k (.got (Res.mkErr (some e)))
  | update (tmp : Path) (data : List UInt8) (d : Nat) (n : Name) (ho : own k = none) (h0 : js0[k]? = some (.update tmp path data))
      (hp : Place fs0 tmp d n) (he : Entry fs d n none) : JobOk fs0 path old js0 fs js own k (.update tmp path data)
  | writing (tmp : Path) (data : List UInt8) (d : Nat) (n : Name) (f off : Nat) (ho : own k = some f)
      (h0 : js0[k]? = some (.update tmp path data)) (hp : Place fs0 tmp d n) (he : Entry fs d n (some f)) (hoff : off ≤ data.length)
      (hf : fs.nodes[f]? = some (.file (data.take off))) : JobOk fs0 path old js0 fs js own k (.writing tmp path data f off)
  | written (tmp : Path) (data : List UInt8) (d : Nat) (n : Name) (f : Nat) (ho : own k = some f)
      (h0 : js0[k]? = some (.update tmp path data)) (hp : Place fs0 tmp d n) (he : Entry fs d n (some f))
      (hf : fs.nodes[f]? = some (.file data)) : JobOk fs0 path old js0 fs js own k (.written tmp path)
  | moving (tmp : Path) (data : List UInt8) (d : Nat) (n : Name) (f : Nat) (ho : own k = some f)
      (h0 : js0[k]? = some (.update tmp path data)) (hp : Place fs0 tmp d n) (he : Entry fs d n (some f))
      (hf : fs.nodes[f]? = some (.file data)) : JobOk fs0 path old js0 fs js own k (.moving tmp path)
  | updated (r : Res Errno Unit) (ho : own k = none) : JobOk fs0 path old js0 fs js own k (.updated r)

/-- The calls other than the one that makes a step stay as they are. -/
theorem JobOk.keep {fs0 : FS} {path : Path} {old : List UInt8} {js0 : List Job} {fs fs' : FS} {js js' : List Job} {own own' : Nat → Option Nat}
    {k : Nat} {j : Job} (h : JobOk fs0 path old js0 fs js own k j) (ho : own' k = own k)
    (hfree : ∀ f : Nat, f < fs.nodes.length → (∀ k', own k' ≠ some f) → ∀ k', own' k' ≠ some f)
    (hfile : ∀ (f : Nat) (c : List UInt8), ((∀ k', own k' ≠ some f) ∨ own k = some f) → fs.nodes[f]? = some (.file c) →
      fs'.nodes[f]? = some (.file c))
    (hent : ∀ (tmp : Path) (data : List UInt8) (d : Nat) (n : Name) (x : Option Nat), js0[k]? = some (.update tmp path data) →
      Place fs0 tmp d n → Entry fs d n x → Entry fs' d n x)
    (hdone : ∀ c, Done path js0 js c → Done path js0 js' c) : JobOk fs0 path old js0 fs' js' own' k j := by
  cases h with
  | read h => exact .read (ho.trans h)
  | opened f c h hf hown hc =>
    exact .opened f c (ho.trans h) (hfile f c (.inl hown) hf) (hfree f (lt_of_node hf) hown) (hc.imp id (hdone c))
  | sized f c h hf hown hc =>
    exact .sized f c (ho.trans h) (hfile f c (.inl hown) hf) (hfree f (lt_of_node hf) hown) (hc.imp id (hdone c))
  | got c h hc => exact .got c (ho.trans h) (hc.imp id (hdone c))
  | gotErr e h => exact .gotErr e (ho.trans h)
  | update tmp data d n h h0 hp he => exact .update tmp data d n (ho.trans h) h0 hp (hent tmp data d n _ h0 hp he)
  | writing tmp data d n f off h h0 hp he hoff hf =>
    exact .writing tmp data d n f off (ho.trans h) h0 hp (hent tmp data d n _ h0 hp he) hoff (hfile f _ (.inr h) hf)
  | written tmp data d n f h h0 hp he hf =>
    exact .written tmp data d n f (ho.trans h) h0 hp (hent tmp data d n _ h0 hp he) (hfile f _ (.inr h) hf)
  | moving tmp data d n f h h0 hp he hf =>
    exact .moving tmp data d n f (ho.trans h) h0 hp (hent tmp data d n _ h0 hp he) (hfile f _ (.inr h) hf)
  | updated r h => exact .updated r (ho.trans h)

structure UInv (fs0 : FS) (path : Path) (d0 : Nat) (n0 : Name) (old : List UInt8) (js0 : List Job) (fs : FS) (js : List Job) : Prop where
  skel : Ext fs0.passable fs0 fs
  len : js.length = js0.length
  cur : ∃ (i : Nat) (c : List UInt8), Entry fs d0 n0 (some i) ∧ fs.nodes[i]? = some (.file c) ∧
    ((c = old ∧ ∀ k : Nat, js[k]? ≠ some (.updated (Res.mkOk ()))) ∨ Done path js0 js c) ∧
    ∃ own : Nat → Option Nat, (∀ k, own k ≠ some i) ∧ (∀ k k' f, own k = some f → own k' = some f → k = k') ∧
      (∀ k f, own k = some f → f < fs.nodes.length) ∧
      (∀ k, js.length ≤ k → own k = none) ∧ ∀ (k : Nat) (j : Job), js[k]? = some j → JobOk fs0 path old js0 fs js own k j

/-- The setting: the path names a file that is there, and the calls are fresh. -/
structure Setting (fs0 : FS) (path : Path) (d0 : Nat) (n0 : Name) (i0 : Nat) (old : List UInt8) (js0 : List Job) : Prop where
  place : Place fs0 path d0 n0
  entry : Entry fs0 d0 n0 (some i0)
  file : fs0.nodes[i0]? = some (.file old)
  small : old.length ≤ 2 ^ 30
  fresh : Fresh fs0 path js0

theorem UInv.start {fs0 : FS} {path : Path} {d0 : Nat} {n0 : Name} {i0 : Nat} {old : List UInt8} {js0 : List Job}
    (h : Setting fs0 path d0 n0 i0 old js0) : UInv fs0 path d0 n0 old js0 fs0 js0 := by
  refine ⟨Ext.refl _ _, rfl, i0, old, h.entry, h.file, .inl ⟨rfl, fun k hk => ?_⟩, fun _ => none, by simp, by simp, by simp, by simp,
    fun k j hj => ?_⟩
  · rcases h.fresh.kinds _ (List.mem_of_getElem? hk) with e | ⟨_, _, e, _⟩ <;> cases e
  · rcases h.fresh.kinds _ (List.mem_of_getElem? hj) with e | ⟨tmp, data, e, _, d, n, hp, he⟩
    · rw [e]; exact .read rfl
    · rw [e] at hj ⊢; exact .update tmp data d n rfl hj hp he

theorem Done.set {path : Path} {js0 js : List Job} {c : List UInt8} {k : Nat} {j j' : Job} (hk : js[k]? = some j)
    (hj : j ≠ .updated (Res.mkOk ())) (h : Done path js0 js c) : Done path js0 (js.set k j') c := by
  obtain ⟨m, tmp, h1, h2⟩ := h
  refine ⟨m, tmp, h1, ?_⟩
  rw [get_set hk, if_neg (by rintro rfl; rw [hk] at h2; exact hj (Option.some.inj h2)), h2]

/-- The place of an update is not that of the file, and no two updates have the same. -/
theorem Setting.apart {fs0 : FS} {path : Path} {d0 : Nat} {n0 : Name} {i0 : Nat} {old : List UInt8} {js0 : List Job}
    (h : Setting fs0 path d0 n0 i0 old js0) {k : Nat} {tmp : Path} {data : List UInt8} {d : Nat} {n : Name}
    (h0 : js0[k]? = some (.update tmp path data)) (hp : Place fs0 tmp d n) : ¬(d0 = d ∧ n0 = n) ∧ data.length ≤ 2 ^ 30 := by
  rcases h.fresh.kinds _ (List.mem_of_getElem? h0) with e | ⟨tmp', data', e, hl, d', n', hp', he'⟩
  · cases e
  · cases e
    obtain ⟨rfl, rfl⟩ := hp.unique hp'
    refine ⟨?_, hl⟩
    rintro ⟨rfl, rfl⟩
    cases h.entry.unique he'

/-- A step that changes nothing but the state of one call, which is not about to be finished well. -/
theorem UInv.quiet {fs0 : FS} {path : Path} {d0 : Nat} {n0 : Name} {old : List UInt8} {js0 : List Job} {fs : FS} {js : List Job} {k : Nat}
    {j j' : Job} (hk : js[k]? = some j) (hj : j ≠ .updated (Res.mkOk ())) (hj' : j' ≠ .updated (Res.mkOk ()))
    (h : UInv fs0 path d0 n0 old js0 fs js)
    (hok : ∀ (i : Nat) (c : List UInt8) (own : Nat → Option Nat) (js' : List Job), Entry fs d0 n0 (some i) → fs.nodes[i]? = some (.file c) →
      (∀ k, own k ≠ some i) → (c = old ∨ Done path js0 js' c) → JobOk fs0 path old js0 fs js' own k j →
      ∃ o, (o = own k ∨ o = none) ∧ JobOk fs0 path old js0 fs js' (fun m => if m = k then o else own m) k j') :
    UInv fs0 path d0 n0 old js0 fs (js.set k j') := by
  obtain ⟨skel, len, i, c, he, hi, hc, own, hcur, hinj, hlt, hlen, hjobs⟩ := h
  have hd : ∀ c, Done path js0 js c → Done path js0 (js.set k j') c := fun c h => h.set hk hj
  have hkl : k < js.length := by rw [List.getElem?_eq_some_iff] at hk; exact hk.1
  have hself : JobOk fs0 path old js0 fs (js.set k j') own k j :=
    (hjobs k j hk).keep rfl (fun f _ h => h) (fun _ _ _ h => h) (fun _ _ _ _ _ _ _ h => h) hd
  obtain ⟨o, ho, hnew⟩ := hok i c own (js.set k j') he hi hcur (hc.imp (·.1) (hd c)) hself
  have hsub : ∀ m f, (if m = k then o else own m) = some f → own m = some f := by
    intro m f hm
    by_cases e : m = k
    · rw [if_pos e] at hm
      rcases ho with ho | ho
      · rw [e, ← ho, hm]
      · rw [ho] at hm; cases hm
    · rw [if_neg e] at hm; exact hm
  refine ⟨skel, by rw [List.length_set, len], i, c, he, hi, hc.imp (fun h => ⟨h.1, fun m hm => ?_⟩) (hd c), fun m => if m = k then o else own m,
    fun m hm => hcur m (hsub m i hm), fun m m' f h1 h2 => hinj m m' f (hsub m f h1) (hsub m' f h2), fun m f hm => hlt m f (hsub m f hm),
    fun m hm => ?_, fun m jm hm => ?_⟩
  · rw [get_set hk] at hm
    by_cases e : m = k
    · rw [if_pos e] at hm; exact hj' (Option.some.inj hm)
    · rw [if_neg e] at hm; exact h.2 m hm
  · rw [List.length_set] at hm
    show (if m = k then o else own m) = none
    rw [if_neg (by omega)]
    exact hlen m hm
  · rw [get_set hk] at hm
    by_cases e : m = k
    · rw [if_pos e] at hm
      cases hm
      rw [e]
      exact hnew
    · rw [if_neg e] at hm
      exact (hjobs m jm hm).keep (if_neg e) (fun f _ h k' hk' => h k' (hsub k' f hk')) (fun _ _ _ h => h) (fun _ _ _ _ _ _ _ h => h) hd

theorem JobOk.own_lt {fs0 : FS} {path : Path} {old : List UInt8} {js0 : List Job} {fs : FS} {js : List Job} {own : Nat → Option Nat}
    {k f : Nat} {j : Job} (h : JobOk fs0 path old js0 fs js own k j) (ho : own k = some f) : f < fs.nodes.length := by
  cases h with
  | read h | gotErr e h | updated r h | got c h hc => rw [h] at ho; cases ho
  | opened f c h hf hown hc | sized f c h hf hown hc => rw [h] at ho; cases ho
  | update tmp data d n h h0 hp he => rw [h] at ho; cases ho
  | writing tmp data d n f off h h0 hp he hoff hf =>
    rw [h] at ho
    cases ho
    exact lt_of_node hf
  | written tmp data d n f h h0 hp he hf =>
    rw [h] at ho
    cases ho
    exact lt_of_node hf
  | moving tmp data d n f h h0 hp he hf =>
    rw [h] at ho
    cases ho
    exact lt_of_node hf

/-- A step of an update that changes the file system. -/
theorem UInv.active {fs0 : FS} {path : Path} {d0 : Nat} {n0 : Name} {i0 : Nat} {old : List UInt8} {js0 : List Job}
    (hs : Setting fs0 path d0 n0 i0 old js0) {fs fs' : FS} {js : List Job} {k : Nat} {j j' : Job} (hk : js[k]? = some j)
    (hj : j ≠ .updated (Res.mkOk ())) {own : Nat → Option Nat} {o : Option Nat} {i i' d : Nat} {n : Name} {c' : List UInt8} {tmp : Path}
    {data : List UInt8} (skel : Ext fs0.passable fs0 fs) (len : js.length = js0.length) (hcur : ∀ k, own k ≠ some i)
    (hinj : ∀ k k' f, own k = some f → own k' = some f → k = k') (hlt : ∀ k f, own k = some f → f < fs.nodes.length)
    (hlen : ∀ k, js.length ≤ k → own k = none) (hjobs : ∀ (k : Nat) (j : Job), js[k]? = some j → JobOk fs0 path old js0 fs js own k j)
    (h0 : js0[k]? = some (.update tmp path data)) (hp : Place fs0 tmp d n)
    (x : Ext fs.passable fs fs')
    (hfile : ∀ (f : Nat) (c : List UInt8), own k ≠ some f → fs.nodes[f]? = some (.file c) → fs'.nodes[f]? = some (.file c))
    (hent : ∀ (d1 : Nat) (n1 : Name) (x : Option Nat), Entry fs d1 n1 x → ¬(d1 = d ∧ n1 = n) → ¬(d1 = d0 ∧ n1 = n0) → Entry fs' d1 n1 x)
    (ho : ∀ f, o = some f → own k = some f ∨ f = fs.nodes.length) (hoi : o ≠ some i') (hi' : i' = i ∨ own k = some i')
    (he : Entry fs' d0 n0 (some i')) (hn : fs'.nodes[i']? = some (.file c'))
    (hc : Done path js0 (js.set k j') c' ∨
      (j' ≠ .updated (Res.mkOk ()) ∧ ((c' = old ∧ ∀ k : Nat, js[k]? ≠ some (.updated (Res.mkOk ()))) ∨ Done path js0 js c')))
    (hnew : JobOk fs0 path old js0 fs' (js.set k j') (fun m => if m = k then o else own m) k j') :
    UInv fs0 path d0 n0 old js0 fs' (js.set k j') := by
  have hd : ∀ c, Done path js0 js c → Done path js0 (js.set k j') c := fun c h => h.set hk hj
  have hjobs' : ∀ (m : Nat) (jm : Job), (js.set k j')[m]? = some jm →
      JobOk fs0 path old js0 fs' (js.set k j') (fun m => if m = k then o else own m) m jm := by
    intro m jm hm
    rw [get_set hk] at hm
    by_cases e : m = k
    · rw [if_pos e] at hm
      cases hm
      rw [e]
      exact hnew
    · rw [if_neg e] at hm
      refine (hjobs m jm hm).keep (if_neg e) (fun f hf hfree k' hk' => ?_) (fun f c hf hc => ?_) (fun t dt d1 n1 y h1 hp1 hy => ?_) hd
      · by_cases e' : k' = k
        · simp only [if_pos e'] at hk'
          rcases ho f hk' with h | h
          · exact hfree k h
          · omega
        · simp only [if_neg e'] at hk'
          exact hfree k' hk'
      · refine hfile f c (fun h => ?_) hc
        rcases hf with hf | hf
        · exact hf k h
        · exact e (hinj m k f hf h)
      · refine hent d1 n1 y hy ?_ ?_
        · rintro ⟨rfl, rfl⟩
          exact e (hs.fresh.apart m k t tmp dt data d1 n1 h1 h0 hp1 hp)
        · rintro ⟨rfl, rfl⟩
          exact (hs.apart h1 hp1).1 ⟨rfl, rfl⟩
  have hlt' : ∀ m f, (if m = k then o else own m) = some f → f < fs'.nodes.length := by
    intro m f hm
    by_cases e : m < js.length
    · have := List.getElem?_eq_getElem (l := js.set k j') (i := m) (by rw [List.length_set]; exact e)
      exact (hjobs' m _ this).own_lt hm
    · have hkl : k < js.length := by rw [List.getElem?_eq_some_iff] at hk; exact hk.1
      rw [if_neg (by omega), hlen m (by omega)] at hm
      cases hm
  refine ⟨skel_trans skel x, by rw [List.length_set, len], i', c', he, hn, ?_, fun m => if m = k then o else own m, fun m hm => ?_,
    fun m m' f h1 h2 => ?_, hlt', fun m hm => ?_, hjobs'⟩
  · rcases hc with h | ⟨hne, ⟨h1, h2⟩ | h⟩
    · exact .inr h
    · refine .inl ⟨h1, fun m hm => ?_⟩
      rw [get_set hk] at hm
      by_cases e : m = k
      · rw [if_pos e] at hm; exact hne (Option.some.inj hm)
      · rw [if_neg e] at hm; exact h2 m hm
    · exact .inr (hd _ h)
  · simp only at hm
    by_cases e : m = k
    · rw [if_pos e] at hm; exact hoi hm
    · rw [if_neg e] at hm
      rcases hi' with h | h
      · exact hcur m (h ▸ hm)
      · exact e (hinj m k i' hm h)
  · simp only at h1 h2
    by_cases e : m = k <;> by_cases e' : m' = k
    · rw [e, e']
    · rw [if_pos e] at h1
      rw [if_neg e'] at h2
      rcases ho f h1 with h | h
      · exact e.trans (hinj k m' f h h2)
      · have := hlt m' f h2; omega
    · rw [if_neg e] at h1
      rw [if_pos e'] at h2
      rcases ho f h2 with h | h
      · exact (hinj m k f h1 h).trans e'.symm
      · have := hlt m f h1; omega
    · rw [if_neg e] at h1
      rw [if_neg e'] at h2
      exact hinj m m' f h1 h2
  · rw [List.length_set] at hm
    have hkl : k < js.length := by rw [List.getElem?_eq_some_iff] at hk; exact hk.1
    show (if m = k then o else own m) = none
    rw [if_neg (by omega)]
    exact hlen m hm

theorem jobs_set_self {α : Type} {l : List α} {k : Nat} {a : α} (h : l[k]? = some a) : l.set k a = l := by
  apply List.ext_getElem?
  intro m
  rw [get_set h]
  by_cases e : m = k
  · rw [if_pos e, e, h]
  · rw [if_neg e]

theorem Setting.bound {fs0 : FS} {path : Path} {d0 : Nat} {n0 : Name} {i0 : Nat} {old : List UInt8} {js0 : List Job}
    (h : Setting fs0 path d0 n0 i0 old js0) {js : List Job} {c : List UInt8} (hc : c = old ∨ Done path js0 js c) : c.length ≤ maxRW := by
  rcases hc with rfl | ⟨k, tmp, h1, _⟩
  · exact h.small
  · rcases h.fresh.kinds _ (List.mem_of_getElem? h1) with e | ⟨tmp', data', e, hl, _⟩
    · cases e
    · cases e; exact hl

theorem fileRead_small {fs : FS} {f : Nat} {c : List UInt8} (hf : fs.nodes[f]? = some (.file c)) (hc : c.length ≤ maxRW) :
    fileRead none fs f c.length = .ok c := by
  rw [fileRead_eq hf]
  by_cases h0 : c.length = 0
  · rw [if_pos h0, List.eq_nil_of_length_eq_zero h0]
  · rw [if_neg h0, Nat.min_eq_left hc, List.take_length, if_neg (by rintro rfl; exact h0 rfl)]
    simp

theorem UInv.step {fs0 : FS} {path : Path} {d0 : Nat} {n0 : Name} {i0 : Nat} {old : List UInt8} {js0 : List Job}
    (hs : Setting fs0 path d0 n0 i0 old js0) {fs : FS} {js : List Job} {k : Nat} {j : Job} (amount : Nat) (fault : Option Errno)
    (hk : js[k]? = some j) (h : UInv fs0 path d0 n0 old js0 fs js) :
    UInv fs0 path d0 n0 old js0 (j.next amount fault fs).2 (js.set k (j.next amount fault fs).1) := by
  have hh := h
  obtain ⟨skel, len, i, c, he, hi, hc, own, hcur, hinj, hlt, hlen, hjobs⟩ := hh
  have hres : ∀ {i : Nat} {c : List UInt8}, Entry fs d0 n0 (some i) → fs.nodes[i]? = some (.file c) → ∀ f, resolve fs f path = .found i :=
    fun he hi f => hs.place.resolve skel f he hi
  cases hjobs k j hk with
  | read ho0 =>
    cases fault with
    | some e =>
      exact h.quiet hk (by simp) (by simp [Job.next, open_]) fun i c own js' he hi hcur hc hok => ⟨none, .inr rfl, .gotErr e (if_pos rfl)⟩
    | none =>
      have hn : (Job.read path).next amount none fs = (.opened i, fs) := by simp only [Job.next, open_, hres he hi]
      rw [hn]
      refine h.quiet hk (by simp) (by simp) fun i1 c1 own js' he1 hi1 hcur hc hok => ?_
      cases he.unique he1
      refine ⟨none, .inr rfl, .opened i c1 (if_pos rfl) hi1 (fun k' => ?_) hc⟩
      by_cases e : k' = k
      · rw [if_pos e]; simp
      · rw [if_neg e]; exact hcur k'
  | opened f cf ho0 hf hown hcf =>
    cases fault with
    | some e => exact h.quiet hk (by simp) (by simp [Job.next]) fun i c own js' he hi hcur hc hok => ⟨none, .inr rfl, .gotErr e (if_pos rfl)⟩
    | none =>
      have hn : (Job.opened f).next amount none fs = (.sized f cf.length, fs) := by simp only [Job.next, Os.size, hf]
      rw [hn]
      refine h.quiet hk (by simp) (by simp) fun i1 c1 own js' he1 hi1 hcur hc hok => ?_
      cases hok with
      | opened _ c2 ho2 hf2 hown2 hc2 =>
        rw [hf] at hf2
        cases hf2
        refine ⟨none, .inr rfl, .sized f cf (if_pos rfl) hf (fun k' => ?_) hc2⟩
        by_cases e : k' = k
        · rw [if_pos e]; simp
        · rw [if_neg e]; exact hown2 k'
  | sized f cf ho0 hf hown hcf =>
    have hb := hs.bound hcf
    have hn : ((Job.sized f cf.length).next amount fault fs = (.got (Res.mkOk cf), fs)) ∨
        ∃ e, (Job.sized f cf.length).next amount fault fs = (.got (Res.mkErr (some e)), fs) := by
      cases fault with
      | none => exact .inl (by simp only [Job.next, fileRead_small hf hb])
      | some e =>
        by_cases h0 : cf.length = 0
        · refine .inl ?_
          simp only [Job.next, fileRead, if_pos h0]
          rw [List.eq_nil_of_length_eq_zero h0]
        · exact .inr ⟨e, by simp only [Job.next, fileRead, if_neg h0]⟩
    rcases hn with hn | ⟨e, hn⟩
    · rw [hn]
      refine h.quiet hk (by simp) (by simp) fun i1 c1 own js' he1 hi1 hcur hc hok => ?_
      generalize hm : cf.length = m at hok
      cases hok with
      | sized _ c2 ho2 hf2 hown2 hc2 =>
        rw [hf] at hf2
        cases hf2
        exact ⟨none, .inr rfl, .got cf (if_pos rfl) hc2⟩
    · rw [hn]
      exact h.quiet hk (by simp) (by simp) fun i c own js' he hi hcur hc hok => ⟨none, .inr rfl, .gotErr e (if_pos rfl)⟩
  | got cf ho0 hcf => simp only [Job.next]; rw [jobs_set_self hk]; exact h
  | gotErr e ho0 => simp only [Job.next]; rw [jobs_set_self hk]; exact h
  | updated r ho0 => simp only [Job.next]; rw [jobs_set_self hk]; exact h
  | update tmp data d n ho0 h0 hp he0 =>
    cases fault with
    | some e =>
      exact h.quiet hk (by simp) (by simp [Job.next, create, Res.mkErr, Res.mkOk]) fun i c own js' he hi hcur hc hok =>
        ⟨none, .inr rfl, .updated _ (if_pos rfl)⟩
    | none =>
      obtain ⟨fs', hcr, hx, hen, hno, hfi, hent⟩ := create_new hp skel he0
      have hn : (Job.update tmp path data).next amount none fs = (.writing tmp path data fs.nodes.length 0, fs') := by
        simp only [Job.next, hcr]
      rw [hn]
      refine UInv.active hs hk (by simp) (o := some fs.nodes.length) (i := i) (i' := i) (c' := c) skel len hcur hinj hlt hlen hjobs h0 hp hx
        (fun f c _ h => hfi f c h) (fun d1 n1 x h1 h2 _ => hent d1 n1 x h1 h2) (fun f h => .inr (Option.some.inj h).symm)
        (fun h => by have := lt_of_node hi; simp only [Option.some.injEq] at h; omega) (.inl rfl)
        (hent d0 n0 _ he (hs.apart h0 hp).1) (hfi i c hi) (.inr ⟨by simp, hc⟩)
        (.writing tmp data d n fs.nodes.length 0 (if_pos rfl) h0 hp hen (Nat.zero_le _) (by rw [hno]; rfl))
  | writing tmp data d n f off ho0 h0 hp he0 hoff hf =>
    cases fault with
    | some e =>
      exact h.quiet hk (by simp) (by simp [Job.next, Res.mkErr, Res.mkOk]) fun i c own js' he hi hcur hc hok =>
        ⟨none, .inr rfl, .updated _ (if_pos rfl)⟩
    | none =>
      have hlen1 : (data.take off).length = off := by rw [List.length_take]; omega
      have hw : writeAt fs f off ((data.drop off).take amount) = fs.set f (.file (data.take (off + ((data.drop off).take amount).length))) := by
        rw [writeAt_eq hf off (by omega)]
        have e1 : (data.take off).take off = data.take off := by rw [List.take_take, Nat.min_self]
        have e2 : (data.take off).drop (off + ((data.drop off).take amount).length) = [] := List.drop_eq_nil_of_le (by omega)
        rw [e1, e2, List.append_nil, List.take_add]
        congr 3
        rw [List.length_take]
        by_cases hl : amount ≤ (data.drop off).length
        · rw [Nat.min_eq_left hl]
        · rw [Nat.min_eq_right (by omega), List.take_length, List.take_of_length_le (by omega)]
      have hle : off + ((data.drop off).take amount).length ≤ data.length := by
        rw [List.length_take, List.length_drop]; omega
      have hnf : ∀ g : Nat, own k ≠ some g → g ≠ f := fun g hg e => hg (e ▸ ho0)
      have common : ∀ (j' : Job), j' ≠ .updated (Res.mkOk ()) →
          (∀ (fs' : FS) (js' : List Job) (own' : Nat → Option Nat), own' k = some f → Entry fs' d n (some f) →
            fs'.nodes[f]? = some (.file (data.take (off + ((data.drop off).take amount).length))) →
            JobOk fs0 path old js0 fs' js' own' k j') →
          UInv fs0 path d0 n0 old js0 (fs.set f (.file (data.take (off + ((data.drop off).take amount).length)))) (js.set k j') := by
        intro j' hj' hmk
        refine UInv.active hs hk (by simp) (o := some f) (i := i) (i' := i) (c' := c) skel len hcur hinj hlt hlen hjobs h0 hp
          ((ext_file hf).mono fun _ _ => trivial) (fun g x hg hx => by rw [set_node hf, if_neg (hnf g hg), hx])
          (fun d1 n1 x h1 _ _ => entry_file hf h1) (fun g hg => .inl (by rw [ho0, hg])) (fun e => hcur k (by rw [ho0, e])) (.inl rfl)
          (entry_file hf he) (by rw [set_node hf, if_neg (hnf i (hcur k)), hi]) (.inr ⟨hj', hc⟩)
          (hmk _ _ _ (if_pos rfl) (entry_file hf he0) (by rw [set_node hf, if_pos rfl]))
      simp only [Job.next, hw]
      by_cases hfin : data.length ≤ off + ((data.drop off).take amount).length
      · rw [if_pos hfin]
        refine common _ (by simp) fun fs' js' own' h1 h2 h3 => .written tmp data d n f h1 h0 hp h2 ?_
        rw [h3, List.take_of_length_le hfin]
      · rw [if_neg hfin]
        exact common _ (by simp) fun fs' js' own' h1 h2 h3 => .writing tmp data d n f _ h1 h0 hp h2 hle h3
  | written tmp data d n f ho0 h0 hp he0 hf =>
    have hn : (Job.written tmp path).next amount fault fs = (.moving tmp path, fs) := by
      cases fault with
      | some e => rfl
      | none => simp only [Job.next, lstat, hres he hi, hi]
    rw [hn]
    refine h.quiet hk (by simp) (by simp) fun i1 c1 own js' he1 hi1 hcur hc hok => ?_
    cases hok with
    | written _ data2 d2 n2 f2 ho2 h02 hp2 he2 hf2 => exact ⟨own k, .inl rfl, .moving tmp data2 d2 n2 f2 ((if_pos rfl).trans ho2) h02 hp2 he2 hf2⟩
  | moving tmp data d n f ho0 h0 hp he0 hf =>
    cases fault with
    | some e =>
      exact h.quiet hk (by simp) (by simp [Job.next, Res.mkErr, Res.mkOk]) fun i c own js' he hi hcur hc hok =>
        ⟨none, .inr rfl, .updated _ (if_pos rfl)⟩
    | none =>
      obtain ⟨up, es, hpa, hd, hl⟩ := hp.parent skel he0
      obtain ⟨up', es', hpb, hd', hl'⟩ := hs.place.parent skel he
      obtain ⟨fs', hren, hx, hen, hfi, hent⟩ := sysRename_file hpa hpb hl hl' (fun e => hcur k (by rw [ho0, e])) hf hi
      have hn : (Job.moving tmp path).next amount none fs = (.updated (Res.mkOk ()), fs') := by simp only [Job.next, hren]
      rw [hn]
      refine UInv.active hs hk (by simp) (o := none) (i := i) (i' := f) (c' := data) skel len hcur hinj hlt hlen hjobs h0 hp hx
        (fun g x _ h => hfi g x h) (fun d1 n1 x h1 h2 h3 => hent d1 n1 x h1 h2 h3) (by simp) (by simp) (.inr ho0) hen (hfi f data hf)
        (.inl ⟨k, tmp, h0, by rw [get_set hk, if_pos rfl]⟩) (.updated _ (if_pos rfl))

theorem UInv.reach {fs0 : FS} {path : Path} {d0 : Nat} {n0 : Name} {i0 : Nat} {old : List UInt8} {js0 : List Job}
    (hs : Setting fs0 path d0 n0 i0 old js0) {s : FS × List Job} (h : Jobs (fs0, js0) s) : UInv fs0 path d0 n0 old js0 s.1 s.2 := by
  induction h with
  | refl => exact UInv.start hs
  | step amount fault _ hk ih => exact ih.step hs amount fault hk

/-! ### What one system call changes -/

theorem read_content {fs0 : FS} {path : Path} {d0 : Nat} {n0 : Name} {i0 : Nat} {old : List UInt8} {js0 : List Job}
    (hs : Setting fs0 path d0 n0 i0 old js0) {fs : FS} {i : Nat} {c : List UInt8} (x : Ext fs0.passable fs0 fs)
    (he : Entry fs d0 n0 (some i)) (hi : fs.nodes[i]? = some (.file c)) (hc : c.length ≤ 2 ^ 30) : read none none fs path = Res.mkOk c :=
  (C85_read_partial fs path c ⟨i, hs.place.resolve x true he hi, hi⟩ hc).1

theorem Job.done_eq {j : Job} (h : j = .updated (Res.mkOk ())) (amount : Nat) (fault : Option Errno) (fs : FS) :
    j.next amount fault fs = (j, fs) := by subst h; rfl

theorem UInv.content {fs0 : FS} {path : Path} {d0 : Nat} {n0 : Name} {i0 : Nat} {old : List UInt8} {js0 : List Job}
    (hs : Setting fs0 path d0 n0 i0 old js0) {fs : FS} {js : List Job} (h : UInv fs0 path d0 n0 old js0 fs js) :
    ∃ (i : Nat) (c : List UInt8), resolve fs true path = .found i ∧ fs.nodes[i]? = some (.file c) ∧ read none none fs path = Res.mkOk c ∧
      ((c = old ∧ ∀ k : Nat, js[k]? ≠ some (.updated (Res.mkOk ()))) ∨ Done path js0 js c) := by
  obtain ⟨skel, len, i, c, he, hi, hc, own, hcur, hinj, hlt, hlen, hjobs⟩ := h
  exact ⟨i, c, hs.place.resolve skel true he hi, hi, read_content hs skel he hi (hs.bound (hc.imp_left And.left)), hc⟩

/-- What a system call of the call number `k` does to the file: it completes an update, or it changes nothing; and the files that others
have open stay as they are. -/
def Effect (path : Path) (js0 : List Job) (fs : FS) (js : List Job) (k : Nat) (j : Job) (r : Job × FS) : Prop :=
    ((j ≠ .updated (Res.mkOk ()) ∧ r.1 = .updated (Res.mkOk ()) ∧ ∃ (tmp : Path) (data : List UInt8),
        js0[k]? = some (.update tmp path data) ∧ read none none r.2 path = Res.mkOk data) ∨
      ((r.1 = .updated (Res.mkOk ()) → j = .updated (Res.mkOk ())) ∧
        read none none r.2 path = read none none fs path)) ∧
    ∀ (m : Nat) (jm : Job) (f : Nat) (c : List UInt8), js[m]? = some jm → (jm = .opened f ∨ ∃ n, jm = .sized f n) →
      fs.nodes[f]? = some (.file c) → r.2.nodes[f]? = some (.file c)

theorem UInv.effect {fs0 : FS} {path : Path} {d0 : Nat} {n0 : Name} {i0 : Nat} {old : List UInt8} {js0 : List Job}
    (hs : Setting fs0 path d0 n0 i0 old js0) {fs : FS} {js : List Job} {k : Nat} {j : Job} (amount : Nat) (fault : Option Errno)
    (hk : js[k]? = some j) (h : UInv fs0 path d0 n0 old js0 fs js) :
    Effect path js0 fs js k j (j.next amount fault fs) := by
  have h' := h.step hs amount fault hk
  have hh := h
  obtain ⟨skel, len, i, c, he, hi, hc, own, hcur, hinj, hlt, hlen, hjobs⟩ := hh
  have hb := hs.bound (hc.imp_left And.left)
  have hr := read_content hs skel he hi hb
  have notown : ∀ (m : Nat) (jm : Job) (f : Nat), js[m]? = some jm → (jm = .opened f ∨ ∃ n, jm = .sized f n) → own k ≠ some f := by
    intro m jm f hm hjm
    rcases hjm with rfl | ⟨n, rfl⟩
    · cases hjobs m _ hm with | opened _ _ _ _ hown => exact hown k
    · cases hjobs m _ hm with | sized _ _ _ _ hown => exact hown k
  have quiet : ∀ (j' : Job), (j' = .updated (Res.mkOk ()) → j = .updated (Res.mkOk ())) → j.next amount fault fs = (j', fs) →
      Effect path js0 fs js k j (j.next amount fault fs) := fun j' hj' e => by
    rw [e]
    exact ⟨.inr ⟨hj', rfl⟩, fun _ _ _ _ _ _ h => h⟩
  cases hjobs k j hk with
  | read ho0 =>
    cases fault with
    | some e => exact quiet (.got (Res.mkErr (some e))) (by simp) (by simp [Job.next, open_])
    | none => exact quiet (.opened i) (by simp) (by simp only [Job.next, open_, hs.place.resolve skel true he hi])
  | opened f cf ho0 hf hown hcf =>
    cases fault with
    | some e => exact quiet _ (by simp) rfl
    | none => exact quiet _ (by simp) rfl
  | sized f cf ho0 hf hown hcf =>
    cases hr : fileRead fault fs f cf.length with
    | error e => exact quiet (.got (Res.mkErr (some e))) (by simp) (by simp only [Job.next, hr])
    | ok d => exact quiet (.got (Res.mkOk d)) (by simp) (by simp only [Job.next, hr])
  | got cf ho0 hcf => exact quiet _ (by simp) rfl
  | gotErr e ho0 => exact quiet _ (by simp) rfl
  | updated r ho0 => exact quiet _ id rfl
  | update tmp data d n ho0 h0 hp he0 =>
    cases fault with
    | some e => exact quiet (.updated (Res.mkErr (some e))) (by simp [Res.mkErr, Res.mkOk]) (by simp only [Job.next, create])
    | none =>
      obtain ⟨fs', hcr, hx, hen, hno, hfi, hent⟩ := create_new hp skel he0
      have hn : (Job.update tmp path data).next amount none fs = (.writing tmp path data fs.nodes.length 0, fs') := by
        simp only [Job.next, hcr]
      rw [hn] at h' ⊢
      refine ⟨.inr ⟨by simp, ?_⟩, fun _ _ f c _ _ hf => hfi f c hf⟩
      rw [hr]
      exact read_content hs h'.skel (hent d0 n0 _ he (hs.apart h0 hp).1) (hfi i c hi) hb
  | writing tmp data d n f off ho0 h0 hp he0 hoff hf =>
    cases fault with
    | some e => exact quiet _ (by simp [Res.mkErr, Res.mkOk]) rfl
    | none =>
      have hlen1 : (data.take off).length = off := by rw [List.length_take]; omega
      have hw : ∃ x, writeAt fs f off ((data.drop off).take amount) = fs.set f (.file x) := ⟨_, writeAt_eq hf off (by omega) _⟩
      obtain ⟨x, hw⟩ := hw
      have hn : ∃ j', j' ≠ Job.updated (Res.mkOk ()) ∧ (Job.writing tmp path data f off).next amount none fs = (j', fs.set f (.file x)) := by
        simp only [Job.next, hw]
        by_cases hfin : data.length ≤ off + ((data.drop off).take amount).length
        · rw [if_pos hfin]; exact ⟨_, by simp, rfl⟩
        · rw [if_neg hfin]; exact ⟨_, by simp, rfl⟩
      obtain ⟨j', hj', hn⟩ := hn
      rw [hn] at h' ⊢
      have hnf : ∀ g : Nat, own k ≠ some g → g ≠ f := fun g hg e => hg (e ▸ ho0)
      refine ⟨.inr ⟨fun e => absurd e hj', ?_⟩, fun m jm g c hm hjm hg => ?_⟩
      · rw [hr]
        exact read_content hs h'.skel (entry_file hf he) (by rw [set_node hf, if_neg (hnf i (hcur k)), hi]) hb
      · show (fs.set f _).nodes[g]? = _
        rw [set_node hf, if_neg (hnf g (notown m jm g hm hjm)), hg]
  | written tmp data d n f ho0 h0 hp he0 hf =>
    refine quiet (.moving tmp path) (by simp) ?_
    cases fault with
    | some e => rfl
    | none => simp only [Job.next, lstat, hs.place.resolve skel false he hi, hi]
  | moving tmp data d n f ho0 h0 hp he0 hf =>
    cases fault with
    | some e => exact quiet _ (by simp [Res.mkErr, Res.mkOk]) rfl
    | none =>
      obtain ⟨up, es, hpa, hd, hl⟩ := hp.parent skel he0
      obtain ⟨up', es', hpb, hd', hl'⟩ := hs.place.parent skel he
      obtain ⟨fs', hren, hx, hen, hfi, hent⟩ := sysRename_file hpa hpb hl hl' (fun e => hcur k (by rw [ho0, e])) hf hi
      have hn : (Job.moving tmp path).next amount none fs = (.updated (Res.mkOk ()), fs') := by simp only [Job.next, hren]
      rw [hn] at h' ⊢
      refine ⟨.inl ⟨by simp, rfl, tmp, data, h0, ?_⟩, fun _ _ g c _ _ hg => hfi g c hg⟩
      exact read_content hs h'.skel hen (hfi f data hf) (hs.bound (.inr ⟨k, tmp, h0, by rw [get_set hk, if_pos rfl]⟩ : data = old ∨ Done path js0 _ data))

/-! ### A Read and the file system -/

theorem Jobs.trans {s t u : FS × List Job} (h : Jobs s t) (h' : Jobs t u) : Jobs s u := by
  induction h' with
  | refl => exact h
  | step amount fault _ hk ih => exact .step amount fault ih hk

/-- How far a Read is that had not begun in the first state. -/
inductive Progress (path : Path) (s1 s2 : FS × List Job) : Job → Prop
  | read : Progress path s1 s2 (.read path)
  | opened (f : Nat) (c : List UInt8) (s : FS × List Job) (hf : s2.1.nodes[f]? = some (.file c)) (h1 : Jobs s1 s) (h2 : Jobs s s2)
      (hr : Fs.read none none s.1 path = Res.mkOk c) : Progress path s1 s2 (.opened f)
  | sized (f : Nat) (c : List UInt8) (s : FS × List Job) (hf : s2.1.nodes[f]? = some (.file c)) (h1 : Jobs s1 s) (h2 : Jobs s s2)
      (hr : Fs.read none none s.1 path = Res.mkOk c) : Progress path s1 s2 (.sized f c.length)
  | got (c : List UInt8) (s : FS × List Job) (h1 : Jobs s1 s) (h2 : Jobs s s2)
      (hr : Fs.read none none s.1 path = Res.mkOk c) : Progress path s1 s2 (.got (Res.mkOk c))
  | failed (e : Errno) : Progress path s1 s2 (.got (Res.mkErr (some e)))

theorem progress {fs0 : FS} {path : Path} {d0 : Nat} {n0 : Name} {i0 : Nat} {old : List UInt8} {js0 : List Job}
    (hs : Setting fs0 path d0 n0 i0 old js0) {s1 s2 : FS × List Job} (h1 : Jobs (fs0, js0) s1) (h : Jobs s1 s2) {k : Nat}
    (hk : s1.2[k]? = some (.read path)) : ∃ j, s2.2[k]? = some j ∧ Progress path s1 s2 j := by
  induction h with
  | refl => exact ⟨_, hk, .read⟩
  | @step fs js k' j' amount fault hrun hk' ih =>
    obtain ⟨j, hj, hp⟩ := ih
    have hj : js[k]? = some j := hj
    have inv : UInv fs0 path d0 n0 old js0 fs js := UInv.reach hs (h1.trans hrun)
    have hst := Jobs.step amount fault hrun hk'
    have one : Jobs (fs, js) ((j'.next amount fault fs).2, js.set k' (j'.next amount fault fs).1) := .step amount fault (.refl _) hk'
    have heff := (inv.effect hs amount fault hk').2
    by_cases e : k = k'
    · subst e
      rw [hk'] at hj
      cases hj
      refine ⟨_, by show (js.set k _)[k]? = _; rw [get_set hk', if_pos rfl], ?_⟩
      cases hp with
      | read =>
        obtain ⟨i, c, hres, hi, hrd, _⟩ := inv.content hs
        cases fault with
        | some e => exact .failed e
        | none =>
          have hn : (Job.read path).next amount none fs = (.opened i, fs) := by simp only [Job.next, open_, hres]
          rw [hn] at one ⊢
          exact .opened i c (fs, js) hi hrun one hrd
      | opened f c s hf a b hr =>
        have hf : fs.nodes[f]? = some (.file c) := hf
        cases fault with
        | some e => exact .failed e
        | none =>
          have hn : (Job.opened f).next amount none fs = (.sized f c.length, fs) := by simp only [Job.next, Os.size, hf]
          rw [hn] at one ⊢
          exact .sized f c s hf a (b.trans one) hr
      | sized f c s hf a b hr =>
        have hf : fs.nodes[f]? = some (.file c) := hf
        have hb : c.length ≤ maxRW := by
          have ok := UInv.reach hs (h1.trans a)
          obtain ⟨_, c', _, _, hrd, hc'⟩ := ok.content hs
          rw [hr] at hrd
          have : c = c' := by simpa [Res.mkOk] using hrd
          exact this ▸ hs.bound (hc'.imp_left And.left)
        have one := b.trans one
        by_cases hz : fault = none ∨ c.length = 0
        · have hn : (Job.sized f c.length).next amount fault fs = (.got (Res.mkOk c), fs) := by
            rcases hz with rfl | h0
            · simp only [Job.next, fileRead_small hf hb]
            · simp only [Job.next, fileRead, if_pos h0]
              rw [List.eq_nil_of_length_eq_zero h0]
          rw [hn] at one ⊢
          exact .got c s a one hr
        · cases fault with
          | none => exact absurd (.inl rfl) hz
          | some e =>
            have hn : (Job.sized f c.length).next amount (some e) fs = (.got (Res.mkErr (some e)), fs) := by
              simp only [Job.next, fileRead, if_neg (fun h => hz (.inr h))]
            rw [hn]
            exact .failed e
      | got c s a b hr => exact .got c s a (b.trans one) hr
      | failed e => exact .failed e
    · refine ⟨j, by show (js.set k' _)[k]? = _; rw [get_set hk', if_neg e, hj], ?_⟩
      cases hp with
      | read => exact .read
      | opened f c s hf a b hr => exact .opened f c s (heff k _ f c hj (.inl rfl) hf) a (b.trans one) hr
      | sized f c s hf a b hr => exact .sized f c s (heff k _ f c hj (.inr ⟨_, rfl⟩) hf) a (b.trans one) hr
      | got c s a b hr => exact .got c s a (b.trans one) hr
      | failed e => exact .failed e
end Gost.Fs

namespace Gost
open Os Fs

/-- **C162**, every moment.  A file is replaced by Write to another file and Rename, by any number of callers at once, each with a
temporary file of its own, while any number of others Read it.  At every moment, that is after any number of system calls in any order,
however much each write(2) writes and whichever calls fail or are never continued, a Read of the path gives exactly the old contents, if
no update has returned Ok yet, or exactly the data of an update that has returned Ok. -/
theorem C162_always {fs0 : FS} {path : Path} {d0 : Nat} {n0 : Name} {i0 : Nat} {old : List UInt8} {js0 : List Job}
    (hs : Setting fs0 path d0 n0 i0 old js0) {fs : FS} {js : List Job} (h : Jobs (fs0, js0) (fs, js)) :
    ∃ c, read none none fs path = Res.mkOk c ∧ readToString none none fs path = Res.mkOk c ∧
      ((c = old ∧ ∀ k : Nat, js[k]? ≠ some (.updated (Res.mkOk ()))) ∨ Done path js0 js c) := by
  have inv := UInv.reach hs h
  obtain ⟨i, c, h1, h2, h3, h4⟩ := UInv.content hs inv
  exact ⟨c, h3, (C85_read_partial fs path c ⟨i, h1, h2⟩ (hs.bound (h4.imp_left And.left))).2.1, h4⟩

/-- **C162**, one step.  The contents change only in the very step in which an update returns Ok, and then they are its data.  An update
that fails changes nothing at all. -/
theorem C162_step {fs0 : FS} {path : Path} {d0 : Nat} {n0 : Name} {i0 : Nat} {old : List UInt8} {js0 : List Job}
    (hs : Setting fs0 path d0 n0 i0 old js0) {fs : FS} {js : List Job} (h : Jobs (fs0, js0) (fs, js)) {k : Nat} {j : Job}
    (hk : js[k]? = some j) (amount : Nat) (fault : Option Errno) :
    (j ≠ .updated (Res.mkOk ()) ∧ (j.next amount fault fs).1 = .updated (Res.mkOk ()) ∧ ∃ (tmp : Path) (data : List UInt8),
        js0[k]? = some (.update tmp path data) ∧ read none none (j.next amount fault fs).2 path = Res.mkOk data) ∨
      (((j.next amount fault fs).1 = .updated (Res.mkOk ()) → j = .updated (Res.mkOk ())) ∧
        read none none (j.next amount fault fs).2 path = read none none fs path) :=
  (UInv.effect hs amount fault hk (UInv.reach hs h)).1

/-- **C162**, Read.  A Read that runs at the same time as updates gives an error, which only a failing system call can cause, or exactly
what the file held at some moment between the call and the return. -/
theorem C162_read {fs0 : FS} {path : Path} {d0 : Nat} {n0 : Name} {i0 : Nat} {old : List UInt8} {js0 : List Job}
    (hs : Setting fs0 path d0 n0 i0 old js0) {s1 s2 : FS × List Job} (h1 : Jobs (fs0, js0) s1) (h2 : Jobs s1 s2) {k : Nat}
    (hk : s1.2[k]? = some (.read path)) {r : Res Errno (List UInt8)} (hr : s2.2[k]? = some (.got r)) :
    (∃ e, r = Res.mkErr (some e)) ∨
      ∃ c s, r = Res.mkOk c ∧ Jobs s1 s ∧ Jobs s s2 ∧ read none none s.1 path = Res.mkOk c := by
  obtain ⟨j, hj, hp⟩ := Fs.progress hs h1 h2 hk
  rw [hr] at hj
  cases hj
  cases hp with
  | got c s a b hr' => exact .inr ⟨c, s, rfl, a, b, hr'⟩
  | failed e => exact .inl ⟨e, rfl⟩

/-- **C162**, no error of its own making.  A system call that does not fail makes no Read and no update return an error. -/
theorem C162_works {fs0 : FS} {path : Path} {d0 : Nat} {n0 : Name} {i0 : Nat} {old : List UInt8} {js0 : List Job}
    (hs : Setting fs0 path d0 n0 i0 old js0) {fs : FS} {js : List Job} (h : Jobs (fs0, js0) (fs, js)) {k : Nat} {j : Job}
    (hk : js[k]? = some j) (amount : Nat) (e : Errno) :
    ((j.next amount none fs).1 = .got (Res.mkErr (some e)) → j = .got (Res.mkErr (some e))) ∧
    ((j.next amount none fs).1 = .updated (Res.mkErr (some e)) → j = .updated (Res.mkErr (some e))) := by
  obtain ⟨skel, len, i, c, he, hi, hc, own, hcur, hinj, hlt, hlen, hjobs⟩ := UInv.reach hs h
  cases hjobs k j hk with
  | read ho0 => simp [Job.next, open_, hs.place.resolve skel true he hi]
  | opened f cf ho0 hf hown hcf => simp [Job.next]
  | sized f cf ho0 hf hown hcf => simp [Job.next, fileRead_small hf (hs.bound hcf), Res.mkErr, Res.mkOk]
  | got cf ho0 hcf => simp [Job.next]
  | gotErr e ho0 => simp [Job.next]
  | updated r ho0 => simp [Job.next]
  | update tmp data d n ho0 h0 hp he0 =>
    obtain ⟨fs', hcr, -⟩ := create_new hp skel he0
    simp [Job.next, hcr]
  | writing tmp data d n f off ho0 h0 hp he0 hoff hf =>
    simp only [Job.next]
    by_cases hfin : data.length ≤ off + ((data.drop off).take amount).length
    · rw [if_pos hfin]; simp
    · rw [if_neg hfin]; simp
  | written tmp data d n f ho0 h0 hp he0 hf => simp [Job.next, lstat, hs.place.resolve skel false he hi, hi]
  | moving tmp data d n f ho0 h0 hp he0 hf =>
    obtain ⟨up, es, hpa, hd, hl⟩ := hp.parent skel he0
    obtain ⟨up', es', hpb, hd', hl'⟩ := hs.place.parent skel he
    obtain ⟨fs', hren, -⟩ := sysRename_file hpa hpb hl hl' (fun e => hcur k (by rw [ho0, e])) hf hi
    simp [Job.next, hren, Res.mkErr, Res.mkOk]

/-- A call that runs alone: the results of its system calls, one after another. -/
def Fs.alone : List (Nat × Option Errno) → FS → Job → Job × FS
  | [], fs, j => (j, fs)
  | (amount, fault) :: l, fs, j => alone l (j.next amount fault fs).2 (j.next amount fault fs).1

/-- **C162**, the calls taken apart are those of the other properties: a Read that runs alone is Read, and an update that runs alone is
Write, and if that succeeds, Rename. -/
theorem C162_alone (fs : FS) (tmp path : Path) (data : List UInt8) (of rf cf : Option Errno) (a b c : Nat) :
    Fs.alone [(a, of), (b, none), (c, rf)] fs (.read path) = (.got (Fs.read of rf fs path), fs) ∧
    (data.length ≤ a → Fs.alone [(b, cf), (a, none), (b, none), (c, none)] fs (.update tmp path data) =
      if (Fs.write cf none fs tmp data).1 = Res.mkOk () then
        (.updated (Fs.rename none (Fs.write cf none fs tmp data).2 tmp path).1, (Fs.rename none (Fs.write cf none fs tmp data).2 tmp path).2)
      else (.updated (Fs.write cf none fs tmp data).1, (Fs.write cf none fs tmp data).2)) := by
  constructor
  · simp only [Fs.alone, Job.next, Fs.read]
    cases ho : open_ of fs path with
    | error e => rfl
    | ok file =>
      simp only
      cases hr : fileRead rf fs file (Os.size fs file) with
      | error e => rfl
      | ok d => rfl
  · intro ha
    cases hc : create cf fs tmp with
    | error e =>
      have hw : Fs.write cf none fs tmp data = (Res.mkErr (some e), fs) := by unfold Fs.write; rw [hc]
      rw [hw, if_neg (by simp [Res.mkErr, Res.mkOk])]
      simp only [Fs.alone, Job.next, hc]
    | ok r =>
      obtain ⟨f, fs1⟩ := r
      have hn : fs1.nodes[f]? = some (.file []) := (create_spec hc).2.1.2
      have hw : Fs.write cf none fs tmp data = (Res.mkOk (), fs1.set f (.file data)) := by unfold Fs.write; rw [hc]; rfl
      rw [hw, if_pos rfl]
      have hat : writeAt fs1 f 0 data = fs1.set f (.file data) := by
        rw [writeAt_eq hn 0 (Nat.zero_le _)]; simp
      simp only [Fs.alone, Job.next, hc, List.drop_zero, List.take_of_length_le ha, hat, Nat.zero_add, Nat.le_refl, if_true]
      generalize fs1.set f (.file data) = fs2
      have hren : ∀ (h : ∀ j u e, lstat fs2 path = .ok j → fs2.nodes[j]? ≠ some (.dir u e)),
          Os.rename none fs2 tmp path = sysRename fs2 tmp path := by
        intro h
        unfold Os.rename
        cases hl : lstat fs2 path with
        | error e => rfl
        | ok j =>
          simp only
          cases hj : fs2.nodes[j]? with
          | none => rfl
          | some x =>
            cases x with
            | file c => rfl
            | dir u e => exact absurd hj (h j u e hl)
            | link t => rfl
      have fin : ∀ (h : ∀ j u e, lstat fs2 path = .ok j → fs2.nodes[j]? ≠ some (.dir u e)),
          (match sysRename fs2 tmp path with
            | .error e => ((Job.updated (Res.mkErr (some e)), fs2) : Job × FS)
            | .ok fs => (Job.updated (Res.mkOk ()), fs)) = (.updated (Fs.rename none fs2 tmp path).1, (Fs.rename none fs2 tmp path).2) := by
        intro h
        unfold Fs.rename
        rw [hren h]
        cases sysRename fs2 tmp path <;> rfl
      cases hl : lstat fs2 path with
      | error e => exact fin fun j u e' h => by rw [hl] at h; cases h
      | ok j =>
        simp only
        cases hj : fs2.nodes[j]? with
        | none => exact fin fun j' u e' h => by rw [hl] at h; cases h; rw [hj]; simp
        | some x =>
          cases x with
          | file c => exact fin fun j' u e' h => by rw [hl] at h; cases h; rw [hj]; simp
          | dir u e => rfl
          | link t => exact fin fun j' u e' h => by rw [hl] at h; cases h; rw [hj]; simp

/-! ### Examples: two updates of `/a` and two Reads -/

/-- `/e/b`, a temporary file in another directory. -/
def Fs.peb : Path := ⟨true, [[101], [98]]⟩
def Fs.sampleJobs : List Job := [.update pb pa [5, 6, 7], .read pa, .update peb pa [8], .read pa]

theorem Fs.sample_setting : Setting Fs.sample pa 0 [97] 1 [1, 2] Fs.sampleJobs where
  place := ⟨0, _, rfl⟩
  entry := ⟨0, [([97], 1), ([100], 2), ([115], 4), ([101], 5)], by decide⟩
  file := by decide
  small := by decide
  fresh := {
    kinds := by
      intro j hj
      simp only [Fs.sampleJobs, List.mem_cons, List.not_mem_nil, or_false] at hj
      rcases hj with rfl | rfl | rfl | rfl
      · exact .inr ⟨_, _, rfl, by decide, 0, [98], ⟨0, _, rfl⟩,
          ⟨0, [([97], 1), ([100], 2), ([115], 4), ([101], 5)], by decide⟩⟩
      · exact .inl rfl
      · exact .inr ⟨_, _, rfl, by decide, 5, [98], ⟨0, [], rfl⟩, ⟨0, [], by decide⟩⟩
      · exact .inl rfl
    apart := by
      intro k k' t t' data data' d n h h' hp hp'
      have hpb : Place Fs.sample pb 0 [98] := ⟨0, _, rfl⟩
      have hpe : Place Fs.sample peb 5 [98] := ⟨0, [], rfl⟩
      rcases k with _ | _ | _ | _ | k <;> simp [Fs.sampleJobs] at h <;>
        rcases k' with _ | _ | _ | _ | k' <;> simp [Fs.sampleJobs] at h' <;> try rfl
      · obtain ⟨rfl, _⟩ := h; obtain ⟨rfl, _⟩ := h'
        exact absurd ((hpb.unique hp).1.trans (hpe.unique hp').1.symm) (by decide)
      · obtain ⟨rfl, _⟩ := h; obtain ⟨rfl, _⟩ := h'
        exact absurd ((hpb.unique hp').1.trans (hpe.unique hp).1.symm) (by decide) }

/-- A schedule: who makes the next system call, how much a write(2) writes, and whether the call fails. -/
def Fs.play : List (Nat × Nat × Option Errno) → FS × List Job → FS × List Job
  | [], s => s
  | (k, amount, fault) :: l, (fs, js) =>
    match js[k]? with
    | some j => play l ((j.next amount fault fs).2, js.set k (j.next amount fault fs).1)
    | none => play l (fs, js)

theorem Fs.play_jobs (l : List (Nat × Nat × Option Errno)) : ∀ (s t : FS × List Job), Jobs s t → Jobs s (play l t) := by
  induction l with
  | nil => exact fun s t h => h
  | cons x l ih =>
    intro s t h
    obtain ⟨k, amount, fault⟩ := x
    obtain ⟨fs, js⟩ := t
    unfold play
    cases hk : js[k]? with
    | none => exact ih s _ h
    | some j => exact ih s _ (.step amount fault h hk)

/-- The first Read opens the file before the first update, writing one byte at a time, is finished, and gets the old contents
afterwards; the second gets the new ones; the second update fails. -/
def Fs.sampleRun : FS × List Job :=
  play [(0, 0, none), (0, 1, none), (2, 0, none), (1, 0, none), (0, 1, none), (2, 9, none), (0, 1, none), (0, 0, none), (0, 0, none),
    (1, 0, none), (3, 0, none), (2, 0, none), (1, 0, none), (2, 0, some .EIO), (3, 0, none), (3, 0, none)] (Fs.sample, sampleJobs)
/-- The same, and nothing after the second byte of the first update. -/
def Fs.sampleCrash : FS × List Job :=
  play [(0, 0, none), (0, 1, none), (2, 0, none), (1, 0, none), (0, 1, none)] (Fs.sample, sampleJobs)

example : Jobs (Fs.sample, sampleJobs) Fs.sampleRun ∧ Jobs (Fs.sample, sampleJobs) Fs.sampleCrash :=
  ⟨Fs.play_jobs _ _ _ (.refl _), Fs.play_jobs _ _ _ (.refl _)⟩
example : Fs.sampleRun.2[0]? = some (.updated (Res.mkOk ())) ∧ Fs.sampleRun.2[1]? = some (.got (Res.mkOk [1, 2])) ∧
    Fs.sampleRun.2[2]? = some (.updated (Res.mkErr (some .EIO))) ∧ Fs.sampleRun.2[3]? = some (.got (Res.mkOk [5, 6, 7])) ∧
    Fs.read none none Fs.sampleRun.1 pa = Res.mkOk [5, 6, 7] := ⟨rfl, rfl, rfl, rfl, rfl⟩
example : Fs.sampleCrash.2[1]? = some (.opened 1) ∧ Fs.read none none Fs.sampleCrash.1 pa = Res.mkOk [1, 2] ∧
    Fs.read none none Fs.sampleCrash.1 pb = Res.mkOk [5, 6] := ⟨rfl, rfl, rfl⟩
end Gost
