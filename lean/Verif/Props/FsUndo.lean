import Verif.Props.FsIso
import Verif.Props.FsPaths
/-
Property C175: what a call made can be unmade.
-/
namespace Gost
open Os Fs Spec

namespace Spec
/-- No directory has two entries with the same name. -/
def NamesOnce (fs : FS) : Prop :=
  ∀ (d up : Nat) (es : List (Name × Nat)), fs.nodes[d]? = some (.dir up es) → (es.map (·.1)).Nodup

/-- The file systems cannot be told apart: every path leads to the same inode or to none in both, every Read,
ReadToString and ReadDir returns the same, and the trees below the roots are the same. -/
structure Alike (fs fs' : FS) : Prop where
  paths : ∀ f p, resolve fs' f p = resolve fs f p
  read : ∀ f g p, Fs.read f g fs' p = Fs.read f g fs p
  string : ∀ f g p, Fs.readToString f g fs' p = Fs.readToString f g fs p
  list : ∀ g f p, Fs.readDir g f fs' p = Fs.readDir g f fs p
  below : SameBelow fs 0 fs' 0
end Spec

namespace Fs
namespace Undo

theorem mem_lookup {α : Type} {es : List (Name × α)} (h : (es.map (·.1)).Nodup) (n : Name) (i : α) :
    (n, i) ∈ es ↔ es.lookup n = some i := by
  induction es with
  | nil => simp [List.lookup]
  | cons e es ih =>
    obtain ⟨m, j⟩ := e
    rw [List.map_cons, List.nodup_cons] at h
    by_cases hm : n = m
    · subst hm
      have hno : ¬ (n, i) ∈ es := fun hc => h.1 (List.mem_map.2 ⟨_, hc, rfl⟩)
      simp only [List.mem_cons, List.lookup, beq_self_eq_true]
      constructor
      · rintro (e | e)
        · cases e; rfl
        · exact absurd e hno
      · rintro e; cases e; exact Or.inl rfl
    · have : (n == m) = false := by simpa using hm
      simp only [List.mem_cons, List.lookup, this]
      rw [← ih h.2]
      constructor
      · rintro (e | e)
        · cases e; exact absurd rfl hm
        · exact e
      · exact Or.inr

theorem nodup_of_names {α : Type} {es : List (Name × α)} (h : (es.map (·.1)).Nodup) : es.Nodup := by
  induction es with
  | nil => exact List.nodup_nil
  | cons e es ih =>
    rw [List.map_cons, List.nodup_cons] at h
    exact List.nodup_cons.2 ⟨fun hc => h.1 (List.mem_map.2 ⟨e, hc, rfl⟩), ih h.2⟩

/-- The listing depends on the names and what they stand for only. -/
theorem sort_same {α : Type} {es es' : List (Name × α)} (h : (es.map (·.1)).Nodup) (h' : (es'.map (·.1)).Nodup)
    (hl : ∀ n, es'.lookup n = es.lookup n) :
    (es'.mergeSort fun a b => nameLe a.1 b.1) = es.mergeSort fun a b => nameLe a.1 b.1 := by
  have hp : es'.Perm es := by
    refine (List.perm_ext_iff_of_nodup (nodup_of_names h') (nodup_of_names h)).2 fun e => ?_
    obtain ⟨n, i⟩ := e
    rw [mem_lookup h', mem_lookup h, hl]
  have hs : ∀ l : List (Name × α), (l.mergeSort fun a b => nameLe a.1 b.1).Pairwise fun a b => nameLe a.1 b.1 :=
    List.pairwise_mergeSort (fun a b c => Fs.nameLe_trans a.1 b.1 c.1) (fun a b => Fs.nameLe_total a.1 b.1)
  refine List.Perm.eq_of_pairwise ?_ (hs es') (hs es)
    ((List.mergeSort_perm _ _).trans (hp.trans (List.mergeSort_perm _ _).symm))
  rintro ⟨n, i⟩ ⟨m, j⟩ ha hb h1 h2
  have hnm : n = m := by
    simp only [nameLe, decide_eq_true_eq] at h1 h2
    exact List.le_antisymm h1 h2
  subst hnm
  rw [List.mem_mergeSort] at ha hb
  rw [mem_lookup h'] at ha
  rw [mem_lookup h] at hb
  rw [hl, hb] at ha
  cases ha
  rfl

inductive Kin : Node → Node → Prop
  | refl (x : Node) : Kin x x
  | dir (u : Nat) (es es' : List (Name × Nat)) (h : ∀ n, es'.lookup n = es.lookup n) : Kin (.dir u es) (.dir u es')

structure Like (fs fs' : FS) : Prop where
  cwd : fs'.cwd = fs.cwd
  limit : fs'.limit = fs.limit
  size : fs'.dirSize = fs.dirSize
  node : ∀ (k : Nat) (x : Node), fs.nodes[k]? = some x → ∃ y, fs'.nodes[k]? = some y ∧ Kin x y

theorem Like.get {fs fs' : FS} (l : Like fs fs') {k : Nat} (hk : k < fs.nodes.length) :
    ∃ x y, fs.nodes[k]? = some x ∧ fs'.nodes[k]? = some y ∧ Kin x y := by
  obtain ⟨y, h1, h2⟩ := l.node k _ (List.getElem?_eq_getElem hk)
  exact ⟨_, y, List.getElem?_eq_getElem hk, h1, h2⟩

theorem walk_like {fs fs' : FS} (t : Tree fs) (l : Like fs fs') (f : Bool) (fuel : Nat) {cur : Nat} (ns : List Name)
    (hc : cur < fs.nodes.length) : walk fs' f fuel cur ns = walk fs f fuel cur ns := by
  induction fuel generalizing cur ns with
  | zero => cases ns <;> rfl
  | succ fuel ih =>
    cases ns with
    | nil => rfl
    | cons n rest =>
      have zero : 0 < fs.nodes.length := by omega
      obtain ⟨x, y, hx, hy, hk⟩ := l.get hc
      rw [walk, walk, hx, hy]
      have key : ∀ (u : Nat) (es es' : List (Name × Nat)), fs.nodes[cur]? = some (.dir u es) →
          (∀ n, es'.lookup n = es.lookup n) →
          (if n = dot then walk fs' f fuel cur rest
            else if n = dotdot then walk fs' f fuel u rest
            else match es'.lookup n with
              | none => if rest = [] then .absent cur n else .fail .ENOENT
              | some i =>
                match fs'.nodes[i]? with
                | some (.link t) =>
                  if rest = [] ∧ f = false then .found i
                  else walk fs' f fuel (if t.abs then 0 else cur) (t.names ++ rest)
                | _ => walk fs' f fuel i rest) =
          (if n = dot then walk fs f fuel cur rest
            else if n = dotdot then walk fs f fuel u rest
            else match es.lookup n with
              | none => if rest = [] then .absent cur n else .fail .ENOENT
              | some i =>
                match fs.nodes[i]? with
                | some (.link t) =>
                  if rest = [] ∧ f = false then .found i
                  else walk fs f fuel (if t.abs then 0 else cur) (t.names ++ rest)
                | _ => walk fs f fuel i rest) := by
        intro u es es' hd hl
        have hu : u < fs.nodes.length := by
          obtain ⟨_, _, h⟩ := t.upDir cur u es hd; exact lt_of_node h
        rw [ih rest hc, ih rest hu, hl]
        cases hn : es.lookup n with
        | none => rfl
        | some i =>
          have hi : i < fs.nodes.length := t.range cur n i (by rw [entry_of hd, hn])
          obtain ⟨x', y', hx', hy', hk'⟩ := l.get hi
          simp only [hx', hy']
          cases hk' with
          | refl x' =>
            cases x' with
            | file c => simp only [ih rest hi]
            | dir u e => simp only [ih rest hi]
            | link t => simp only [ih _ (show (if t.abs then 0 else cur) < fs.nodes.length by split <;> assumption)]
          | dir u' e e' h => simp only [ih rest hi]
      cases hk with
      | refl x =>
        cases x with
        | file c => rfl
        | link c => rfl
        | dir u es => exact key u es es hx fun _ => rfl
      | dir u es es' h => exact key u es es' hx h

theorem resolve_like {fs fs' : FS} (t : Tree fs) (l : Like fs fs') (f : Bool) (p : Path) :
    resolve fs' f p = resolve fs f p := by
  unfold resolve
  rw [l.cwd, l.limit]
  have h : (if p.abs then 0 else fs.cwd) < fs.nodes.length := by
    split
    · obtain ⟨_, h⟩ := t.top; exact lt_of_node h
    · obtain ⟨_, _, h⟩ := t.cwd; exact lt_of_node h
  rw [walk_like t l f _ _ h]

theorem inode_like {fs fs' : FS} (l : Like fs fs') {k : Nat} (hk : k < fs.nodes.length) (n : Name) :
    inode fs' k n = inode fs k n := by
  obtain ⟨x, y, hx, hy, h⟩ := l.get hk
  unfold inode
  rw [hx, hy]
  cases h with
  | refl x => rfl
  | dir u es es' h => exact h n

theorem reach_like {fs fs' : FS} (t : Tree fs) (l : Like fs fs') {k : Nat} (hk : k < fs.nodes.length) (q : List Name) :
    reach fs' k q = reach fs k q := by
  induction q generalizing k with
  | nil => rfl
  | cons n q ih =>
    rw [reach, reach, inode_like l hk]
    cases h : inode fs k n with
    | none => rfl
    | some x => exact ih (t.range k n x h)

theorem reach_range {fs : FS} (t : Tree fs) {q : List Name} {k : Nat} (h : reach fs 0 q = some k) : k < fs.nodes.length := by
  rcases snoc_cases q with rfl | ⟨r, n, rfl⟩
  · cases h; obtain ⟨_, h⟩ := t.top; exact lt_of_node h
  · obtain ⟨x, -, hx⟩ := reach_snoc.1 h; exact t.range x n k hx

theorem type_like {fs fs' : FS} (l : Like fs fs') {k : Nat} (hk : k < fs.nodes.length) : typeOf fs' k = typeOf fs k := by
  obtain ⟨x, y, hx, hy, h⟩ := l.get hk
  unfold typeOf
  rw [hx, hy]
  cases h with
  | refl x => rfl
  | dir u es es' h => rfl

theorem alike_of {fs fs' : FS} (t : Tree fs) (o : NamesOnce fs) (o' : NamesOnce fs') (l : Like fs fs') : Alike fs fs' := by
  have zero : 0 < fs.nodes.length := by obtain ⟨_, h⟩ := t.top; exact lt_of_node h
  have open_like : ∀ f p, open_ f fs' p = open_ f fs p := by
    intro f p; unfold open_; rw [resolve_like t l]
  have found : ∀ f p i, open_ f fs p = .ok i → i < fs.nodes.length := by
    intro f p i h
    unfold open_ at h
    cases f with
    | some e => cases h
    | none =>
      simp only at h
      match hr : resolve fs true p with
      | .fail e => rw [hr] at h; cases h
      | .absent d n => rw [hr] at h; cases h
      | .found j => rw [hr] at h; cases h; exact resolve_range t hr
  have file_like : ∀ g k, k < fs.nodes.length → fileRead g fs' k (size fs' k) = fileRead g fs k (size fs k) := by
    intro g k hk
    obtain ⟨x, y, hx, hy, h⟩ := l.get hk
    unfold fileRead size
    rw [hx, hy, l.size]
    cases h with
    | refl x => rfl
    | dir u es es' h => rfl
  have kinds : ∀ q i j, reach fs 0 q = some i → reach fs' 0 q = some j → i = j ∧
      ∃ x y, fs.nodes[i]? = some x ∧ fs'.nodes[j]? = some y ∧ Kin x y := by
    intro q i j h1 h2
    rw [reach_like t l zero, h1] at h2
    cases h2
    exact ⟨rfl, l.get (reach_range t h1)⟩
  refine ⟨resolve_like t l, ?_, ?_, ?_, ⟨?_, ?_, ?_, ?_⟩⟩
  · intro f g p
    unfold Fs.read
    rw [open_like]
    match h : open_ f fs p with
    | .error e => rfl
    | .ok i => simp only [file_like g i (found f p i h)]
  · intro f g p
    unfold Fs.readToString
    rw [open_like]
    match h : open_ f fs p with
    | .error e => rfl
    | .ok i => simp only [file_like g i (found f p i h)]
  · intro g f p
    have : Os.readDir f fs' p = Os.readDir f fs p := by
      unfold Os.readDir
      cases f with
      | some e => rfl
      | none =>
        simp only
        rw [resolve_like t l]
        match hr : resolve fs true p with
        | .fail e => rfl
        | .absent d n => rfl
        | .found i =>
          simp only
          obtain ⟨x, y, hx, hy, h⟩ := l.get (resolve_range t hr)
          have key : ∀ (u : Nat) (es es' : List (Name × Nat)), fs.nodes[i]? = some (.dir u es) → fs'.nodes[i]? = some (.dir u es') →
              (∀ n, es'.lookup n = es.lookup n) →
              ((es'.mergeSort fun a b => nameLe a.1 b.1).map fun e => (⟨e.1, typeOf fs' e.2⟩ : Os.DirEntry)) =
              (es.mergeSort fun a b => nameLe a.1 b.1).map fun e => ⟨e.1, typeOf fs e.2⟩ := by
            intro u es es' h1 h2 hl
            rw [sort_same (o i u es h1) (o' i u es' h2) hl]
            refine List.map_congr_left ?_
            rintro ⟨n, k⟩ he
            rw [List.mem_mergeSort, mem_lookup (o i u es h1)] at he
            have hk : k < fs.nodes.length := t.range i n k (by rw [entry_of h1, he])
            simp only [type_like l hk]
          cases h with
          | refl x =>
            cases x with
            | file c => rw [hx, hy]
            | link c => rw [hx, hy]
            | dir u es => rw [hx, hy]; simp only; rw [key u es es hx hy fun _ => rfl]
          | dir u es es' h => rw [hx, hy]; simp only; rw [key u es es' hx hy h]
    unfold Fs.readDir
    rw [this]
  · intro q; rw [reach_like t l zero]
  · intro q i j c h1 h2
    obtain ⟨rfl, x, y, hx, hy, h⟩ := kinds q i j h1 h2
    rw [hx, hy]
    cases h with
    | refl x => exact Iff.rfl
    | dir u es es' h => exact ⟨fun e => (by cases e), fun e => (by cases e)⟩
  · intro q i j h1 h2
    obtain ⟨rfl, x, y, hx, hy, h⟩ := kinds q i j h1 h2
    unfold IsDir
    rw [hx, hy]
    cases h with
    | refl x => exact Iff.rfl
    | dir u es es' h => exact ⟨fun _ => ⟨_, _, rfl⟩, fun _ => ⟨_, _, rfl⟩⟩
  · intro q q' i i' j j' h1 h2 h3 h4
    obtain ⟨rfl, -⟩ := kinds q i j h1 h3
    obtain ⟨rfl, -⟩ := kinds q' i' j' h2 h4
    exact Iff.rfl

/-! ### Names are given once -/

theorem once_filter {es : List (Name × Nat)} (h : (es.map (·.1)).Nodup) (n : Name) :
    ((es.filter fun e => e.1 ≠ n).map (·.1)).Nodup :=
  List.Nodup.sublist (List.Sublist.map _ List.filter_sublist) h

theorem once_concat {es : List (Name × Nat)} (h : (es.map (·.1)).Nodup) {n : Name} (i : Nat) (hn : es.lookup n = none) :
    ((es ++ [(n, i)]).map (·.1)).Nodup := by
  rw [List.map_append, List.nodup_append]
  refine ⟨h, by simp, ?_⟩
  intro a ha b hb
  simp only [List.map_cons, List.map_nil, List.mem_singleton] at hb
  subst hb
  rintro rfl
  obtain ⟨⟨m, j⟩, hm, rfl⟩ := List.mem_map.1 ha
  rw [mem_lookup h] at hm
  rw [hm] at hn
  cases hn

theorem once_set {fs : FS} (o : NamesOnce fs) {d : Nat} {x y : Node} (hd : fs.nodes[d]? = some x)
    (hy : ∀ u es, y = .dir u es → (es.map (·.1)).Nodup) : NamesOnce (fs.set d y) := by
  intro k u es hk
  replace hk : (fs.nodes.set d y)[k]? = some (.dir u es) := hk
  rw [get_set hd] at hk
  split at hk
  · cases hk; exact hy u es rfl
  · exact o k u es hk

theorem once_add {fs : FS} (o : NamesOnce fs) {d up : Nat} {es : List (Name × Nat)} (hd : fs.nodes[d]? = some (.dir up es))
    {n : Name} (hn : es.lookup n = none) {node : Node} (hy : ∀ u es, node = .dir u es → es = []) :
    NamesOnce (addNode fs d up es n node) := by
  intro k u e hk
  rw [addNode_get hd] at hk
  split at hk
  · cases hk; rw [hy u e rfl]; exact List.nodup_nil
  · split at hk
    · cases hk; exact once_concat (o d _ _ hd) _ hn
    · exact o k u e hk

theorem once_drop {fs : FS} (o : NamesOnce fs) (d : Nat) (n : Name) : NamesOnce (dropEntry fs d n) := by
  unfold dropEntry
  match hd : fs.nodes[d]? with
  | some (.dir up es) => exact once_set o hd fun u e h => by cases h; exact once_filter (o d _ _ hd) n
  | some (.file c) => exact o
  | some (.link c) => exact o
  | none => exact o

theorem once_setEntry {fs : FS} (o : NamesOnce fs) (d : Nat) (n : Name) (i : Nat) : NamesOnce (setEntry fs d n i) := by
  unfold setEntry
  match hd : fs.nodes[d]? with
  | some (.dir up es) =>
    exact once_set o hd fun u e h => by
      cases h; exact once_concat (once_filter (o d _ _ hd) n) i (by rw [lookup_filter, if_pos rfl])
  | some (.file c) => exact o
  | some (.link c) => exact o
  | none => exact o

theorem once_reparent {fs : FS} (o : NamesOnce fs) (i d : Nat) : NamesOnce (reparent fs i d) := by
  unfold reparent
  match hd : fs.nodes[i]? with
  | some (.dir up es) => exact once_set o hd fun u e h => by cases h; exact o i _ _ hd
  | some (.file c) => exact o
  | some (.link c) => exact o
  | none => exact o

theorem size_moved (fs : FS) (d d' i : Nat) (n n' : Name) :
    (reparent (setEntry (dropEntry fs d n) d' n' i) i d').dirSize = fs.dirSize := by
  have h1 : (dropEntry fs d n).dirSize = fs.dirSize := by unfold dropEntry; split <;> rfl
  have h2 : ∀ gs : FS, (setEntry gs d' n' i).dirSize = gs.dirSize := by intro gs; unfold setEntry; split <;> rfl
  have h3 : ∀ gs : FS, (reparent gs i d').dirSize = gs.dirSize := by intro gs; unfold reparent; split <;> rfl
  rw [h3, h2, h1]
end Undo

open Undo in
/-- Every call keeps the names of a directory distinct. -/
theorem Op.run_once {fs : FS} (o : NamesOnce fs) (op : Op) : NamesOnce (op.run fs) := by
  have rem : ∀ f p, NamesOnce (Fs.removeDir f fs p).2 := by
    intro f p
    unfold Fs.removeDir remove
    cases f with
    | some e => exact o
    | none =>
      simp only
      unfold unlink rmdir
      match hp : parent fs p with
      | .error e => simp only; exact o
      | .ok (d, up, es, n) =>
        obtain ⟨hd, -⟩ := parent_ok hp
        have hu : NamesOnce (unentry fs d up es n) :=
          once_set o hd fun u e h => by cases h; exact once_filter (o d _ _ hd) n
        simp only
        cases hl : es.lookup n with
        | none => exact o
        | some i =>
          simp only
          match hi : fs.nodes[i]? with
          | some (.dir u []) => exact hu
          | some (.dir u (x :: e)) => exact o
          | some (.file c) => exact hu
          | some (.link c) => exact hu
          | none => exact hu
  cases op with
  | createDir f p =>
    simp only [Op.run, Fs.createDir, mkdir]
    cases f with
    | some e => exact o
    | none =>
      simp only
      match hp : parent fs p with
      | .error e => cases e <;> exact o
      | .ok (d, up, es, n) =>
        obtain ⟨hd, -⟩ := parent_ok hp
        simp only
        cases hl : es.lookup n with
        | some i => exact o
        | none => exact once_add o hd hl fun u e h => by cases h; rfl
  | write cf wf p data =>
    simp only [Op.run, Fs.write, create]
    have wr : ∀ (gs : FS) (i : Nat), NamesOnce gs → i < gs.nodes.length →
        NamesOnce (match fileWrite wf gs i data with
          | (fs, some e) => ((Res.mkErr (some e) : Res Errno Unit), fs)
          | (fs, none) => (Res.mkOk (), fs)).2 := by
      intro gs i og hi
      have hg := List.getElem?_eq_getElem hi
      cases wf with
      | none => exact once_set og hg fun u e h => by cases h
      | some w => exact once_set og hg fun u e h => by cases h
    cases cf with
    | some e => exact o
    | none =>
      simp only
      match hr : resolve fs true p with
      | .fail e => exact o
      | .found i =>
        simp only
        match hi : fs.nodes[i]? with
        | some (.file c) =>
          simp only
          exact wr _ _ (once_set o hi fun u e h => by cases h)
            (by show i < (fs.nodes.set i _).length; rw [List.length_set]; exact lt_of_node hi)
        | some (.dir u e) => exact o
        | some (.link c) => exact o
        | none => exact o
      | .absent d n =>
        simp only
        have ha : ∃ up es, fs.nodes[d]? = some (.dir up es) ∧ es.lookup n = none := by
          unfold resolve at hr
          split at hr
          · cases hr
          · exact (walk_absent hr).1
        obtain ⟨up, es, hd, hl⟩ := ha
        rw [hd]
        simp only
        exact wr _ _ (once_add o hd hl fun u e h => by cases h)
          (by show fs.nodes.length < (fs.nodes.set d _ ++ [_]).length; simp)
  | copy f a b =>
    simp only [Op.run, Fs.copy]
    match h : link f fs a b with
    | .error e => exact o
    | .ok fs' =>
      obtain ⟨-, i, d, up, es, n, -, hp, hl, -, rfl⟩ := link_spec h
      obtain ⟨hd, -⟩ := parent_ok hp
      exact once_set o hd fun u e h => by cases h; exact once_concat (o d _ _ hd) i hl
  | removeFile f p => exact rem f p
  | removeDir f p => exact rem f p
  | rename f a b =>
    simp only [Op.run, Fs.rename]
    match h : Os.rename f fs a b with
    | .error e => exact o
    | .ok fs' =>
      obtain ⟨-, hs⟩ := rename_sys h
      obtain ⟨d, up, es, n, d', up', es', n', i, -, -, -, hc⟩ := sysRename_spec hs
      rcases hc with ⟨-, rfl⟩ | ⟨-, rfl⟩
      · exact o
      · exact once_reparent (once_setEntry (once_drop o d n) d' n' i) i d'

/-- Any history of calls does. -/
theorem runAll_once {fs : FS} (o : NamesOnce fs) (ops : List Op) : NamesOnce (runAll fs ops) := by
  induction ops generalizing fs with
  | nil => exact o
  | cons op ops ih => exact ih (Op.run_once o op)

namespace Undo
theorem filter_fresh {es : List (Name × Nat)} {n : Name} (h : es.lookup n = none) (i : Nat) :
    ((es ++ [(n, i)]).filter fun e => e.1 ≠ n) = es := by
  rw [List.filter_append]
  have h1 : ([(n, i)].filter fun e => e.1 ≠ n) = [] := by simp
  rw [h1, List.append_nil, List.filter_eq_self]
  rintro ⟨m, j⟩ hm
  simp only [ne_eq, decide_not, Bool.not_eq_eq_eq_not, Bool.not_true, decide_eq_false_iff_not]
  rintro rfl
  have : es.lookup m ≠ none := by
    intro hc
    rw [List.lookup_eq_none_iff] at hc
    exact absurd (hc (m, j) hm) (by simp)
  exact this h

theorem like_append (fs : FS) (extra : List Node) : Like fs { fs with nodes := fs.nodes ++ extra } := by
  refine ⟨rfl, rfl, rfl, fun k x hk => ⟨x, ?_, .refl x⟩⟩
  show (fs.nodes ++ extra)[k]? = some x
  rw [List.getElem?_append_left (lt_of_node hk), hk]

/-- A new entry, for a new inode or an old one, is removed again. -/
theorem removed {fs gs : FS} {p : Path} {d up : Nat} {es : List (Name × Nat)} {n : Name} {i : Nat} {extra : List Node}
    (hp : parent fs p = .ok (d, up, es, n)) (hn : es.lookup n = none)
    (hg : gs = { fs with nodes := (fs.nodes.set d (.dir up (es ++ [(n, i)]))) ++ extra })
    (x : Ext (fun _ => True) fs gs) (hi : ∀ u e, gs.nodes[i]? = some (.dir u e) → e = []) :
    remove none gs p = .ok { fs with nodes := fs.nodes ++ extra } := by
  obtain ⟨hd, h1, h2, h3, hw⟩ := parent_ok hp
  have hlt : d < fs.nodes.length := lt_of_node hd
  have hgd : gs.nodes[d]? = some (.dir up (es ++ [(n, i)])) := by
    rw [hg]
    show (fs.nodes.set d _ ++ extra)[d]? = _
    rw [List.getElem?_append_left (by rw [List.length_set]; exact hlt), get_set hd, if_pos rfl]
  have w := walk_ext x (fun _ _ => trivial) trivial hw
  have hp' : parent gs p = .ok (d, up, es ++ [(n, i)], n) := by
    unfold parent
    rw [h3]
    simp only [List.getLast?_append, List.getLast?_singleton, Option.some_or, List.dropLast_concat]
    rw [if_neg (by rintro (h | h); exact h1 h; exact h2 h), x.limit, x.cwd, w]
    simp only [hgd]
  rw [remove_ok hp' (i := i) (by rw [lookup_concat, hn]; simp) hi]
  unfold unentry
  rw [filter_fresh hn]
  have hset : fs.nodes.set d (.dir up es) = fs.nodes := by
    rw [List.getElem?_eq_some_iff] at hd
    obtain ⟨hlt, hd⟩ := hd
    rw [← hd, List.set_getElem_self]
  rw [hg]
  show Except.ok { fs with nodes := (fs.nodes.set d _ ++ extra).set d (.dir up es) } = _
  rw [List.set_append_left _ _ (by rw [List.length_set]; exact hlt), List.set_set, hset]
end Undo
end Fs

open Fs.Undo

/-- **C175.** RemoveDir undoes CreateDir: if CreateDir(p) returns Ok, RemoveDir(p) then returns Ok, and the file system
cannot be told apart from what it was before. -/
theorem C175_createDir {f : Option Errno} {fs : FS} {p : Path} (t : Tree fs) (o : NamesOnce fs)
    (h : (Fs.createDir f fs p).1 = Res.mkOk ()) :
    (Fs.removeDir none (Fs.createDir f fs p).2 p).1 = Res.mkOk () ∧ Alike fs (Fs.removeDir none (Fs.createDir f fs p).2 p).2 := by
  have o2 := Op.run_once (Op.run_once o (.createDir f p)) (.removeDir none p)
  simp only [Op.run] at o2
  match hm : mkdir f fs p with
  | .error e => simp only [Fs.createDir, hm] at h; exact absurd h mkErr_ne_mkOk
  | .ok gs =>
    simp only [Fs.createDir, hm] at o2 ⊢
    obtain ⟨x, -⟩ := mkdir_spec hm
    unfold mkdir at hm
    cases f with
    | some e => cases hm
    | none =>
      simp only at hm
      match hp : parent fs p with
      | .error e => rw [hp] at hm; cases e <;> cases hm
      | .ok (d, up, es, n) =>
        rw [hp] at hm
        simp only at hm
        cases hl : es.lookup n with
        | some i => rw [hl] at hm; cases hm
        | none =>
          rw [hl] at hm
          cases hm
          obtain ⟨hd, -⟩ := parent_ok hp
          have hr := removed (i := fs.nodes.length) (extra := [.dir d []]) hp hl rfl x (fun u e he => by
            have hg := addNode_get (n := n) (node := .dir d []) hd fs.nodes.length
            rw [if_pos rfl] at hg
            have : (addNode fs d up es n (.dir d [])).nodes[fs.nodes.length]? = some (.dir u e) := he
            rw [hg] at this; cases this; rfl)
          have hr' : remove none (addNode fs d up es n (.dir d [])) p = _ := hr
          simp only [Fs.removeDir, hr'] at o2 ⊢
          exact ⟨trivial, alike_of t o o2 (like_append fs _)⟩

/-- **C175.** RemoveFile undoes Copy: if Copy(a, b) returns Ok, RemoveFile(b) then returns Ok, and the file system cannot
be told apart from what it was before. -/
theorem C175_copy {f : Option Errno} {fs : FS} {a b : Path} (t : Tree fs) (o : NamesOnce fs)
    (h : (Fs.copy f fs a b).1 = Res.mkOk ()) :
    (Fs.removeFile none (Fs.copy f fs a b).2 b).1 = Res.mkOk () ∧ Alike fs (Fs.removeFile none (Fs.copy f fs a b).2 b).2 := by
  have o2 := Op.run_once (Op.run_once o (.copy f a b)) (.removeFile none b)
  simp only [Op.run] at o2
  match hm : link f fs a b with
  | .error e => simp only [Fs.copy, hm] at h; exact absurd h mkErr_ne_mkOk
  | .ok gs =>
    simp only [Fs.copy, hm] at o2 ⊢
    obtain ⟨x, -⟩ := link_ext hm
    obtain ⟨-, i, d, up, es, n, -, hp, hl, hi, rfl⟩ := link_spec hm
    obtain ⟨hd, -⟩ := parent_ok hp
    have hr := removed (i := i) (extra := []) hp hl (by unfold FS.set; rw [List.append_nil]) x (fun u e he => by
      have he : (fs.nodes.set d _)[i]? = some (.dir u e) := he
      rw [get_set hd] at he
      split at he
      · rename_i h; rw [h] at hi; exact absurd hd (hi _ _)
      · exact absurd he (hi u e))
    simp only [Fs.removeFile, hr] at o2 ⊢
    exact ⟨trivial, alike_of t o o2 (like_append fs _)⟩

/-- **C175.** RemoveFile undoes a Write that made its file, even one that failed halfway: if nothing is under the name p,
then after a Write(p) that got the file created, RemoveFile(p) returns Ok, and the file system cannot be told apart from
what it was before. -/
theorem C175_write {w : Option (Nat × Errno)} {fs : FS} {p : Path} {data : List UInt8} {d : Nat} {n : Name} (t : Tree fs)
    (o : NamesOnce fs) (h : Slot fs p d n) (hn : inode fs d n = none) :
    (Fs.removeFile none (Fs.write none w fs p data).2 p).1 = Res.mkOk () ∧
    Alike fs (Fs.removeFile none (Fs.write none w fs p data).2 p).2 := by
  have o2 := Op.run_once (Op.run_once o (.write none w p data)) (.removeFile none p)
  simp only [Op.run] at o2
  obtain ⟨up, es, hp⟩ := slot_parent.1 h
  obtain ⟨hd, h1, h2, h3, hw⟩ := parent_ok hp
  rw [entry_of hd] at hn
  have hr : resolve fs true p = .absent d n := by
    obtain ⟨k, hk⟩ := resolve_parent (f := true) h3 hw
    rw [hk]; exact walk_last_absent hd h1 h2 hn
  have hset : ∀ c : List UInt8, (addNode fs d up es n (.file [])).set fs.nodes.length (.file c) = addNode fs d up es n (.file c) := by
    intro c
    unfold addNode FS.set
    simp only
    rw [List.set_append_right _ _ (by simp)]
    simp
  have hwr : ∃ c, (Fs.write none w fs p data).2 = addNode fs d up es n (.file c) := by
    unfold Fs.write create
    simp only [hr, hd]
    cases w with
    | none => exact ⟨data, hset data⟩
    | some e => exact ⟨data.take e.1, hset _⟩
  obtain ⟨c, hc⟩ := hwr
  rw [hc] at o2 ⊢
  have x := ext_addNode (n := n) (node := .file c) hd (fun t h => by cases h)
  have hrem := removed (i := fs.nodes.length) (extra := [.file c]) hp hn rfl x (fun u e he => by
    have hg := addNode_get (n := n) (node := .file c) hd fs.nodes.length
    rw [if_pos rfl] at hg
    have : (addNode fs d up es n (.file c)).nodes[fs.nodes.length]? = some (.dir u e) := he
    rw [hg] at this; cases this)
  have hrem' : remove none (addNode fs d up es n (.file c)) p = _ := hrem
  simp only [Fs.removeFile, hrem'] at o2 ⊢
  exact ⟨trivial, alike_of t o o2 (like_append fs _)⟩

/-- **C175.** Rename undoes Rename: if Rename(a, b) returns Ok for a path b under which nothing was, Rename(b, a) then
returns Ok, and the file system cannot be told apart from what it was before.  For files, links and directories, and
absolute paths without symbolic links on the way. -/
theorem C175_rename {f : Option Errno} {fs : FS} {pd pd' : List Name} {n n' : Name} {i d' : Nat} (t : Tree fs) (o : NamesOnce fs)
    (h : (Fs.rename f fs ⟨true, pd ++ [n]⟩ ⟨true, pd' ++ [n']⟩).1 = Res.mkOk ())
    (ha : reach fs 0 (pd ++ [n]) = some i) (hb : reach fs 0 pd' = some d') (hD : IsDir fs d')
    (hs : inode fs d' n' = none) :
    (Fs.rename none (Fs.rename f fs ⟨true, pd ++ [n]⟩ ⟨true, pd' ++ [n']⟩).2 ⟨true, pd' ++ [n']⟩ ⟨true, pd ++ [n]⟩).1 = Res.mkOk () ∧
    Alike fs (Fs.rename none (Fs.rename f fs ⟨true, pd ++ [n]⟩ ⟨true, pd' ++ [n']⟩).2 ⟨true, pd' ++ [n']⟩ ⟨true, pd ++ [n]⟩).2 := by
  have o2 := Op.run_once (Op.run_once o (.rename f ⟨true, pd ++ [n]⟩ ⟨true, pd' ++ [n']⟩)) (.rename none ⟨true, pd' ++ [n']⟩ ⟨true, pd ++ [n]⟩)
  simp only [Op.run] at o2
  obtain ⟨-, hsys⟩ := rename_sys (rename_ok h)
  generalize (Fs.rename f fs ⟨true, pd ++ [n]⟩ ⟨true, pd' ++ [n']⟩).2 = gs at *
  obtain ⟨d0, up, es, m, d0', up', es', m', i0, hpa, hpb, hl, hcase⟩ := sysRename_spec hsys
  obtain ⟨d, hpd, he⟩ := reach_snoc.1 ha
  have hDd : IsDir fs d := entry_dir he
  obtain ⟨rfl, rfl⟩ := parent_reach t hpa hpd hDd
  obtain ⟨rfl, rfl⟩ := parent_reach t hpb hb hD
  obtain ⟨hd, a1, a2, -, wa⟩ := parent_ok hpa
  obtain ⟨hd', b1, b2, -, wb⟩ := parent_ok hpb
  rw [entry_of hd, hl] at he
  cases he
  rw [entry_of hd'] at hs
  have hs' : es'.lookup m' ≠ some i := fun hc => by rw [hs] at hc; cases hc
  rcases hcase with ⟨hc, -⟩ | ⟨-, rfl⟩
  · exact absurd hc hs'
  have hm := moved (i := i) (n := m) (n' := m') hd hd'
  have he : inode fs d0 m = some i := by rw [entry_of hd, hl]
  have hs2 : inode fs d0' m' = none := by rw [entry_of hd', hs]
  have ho := sysRename_outside t hsys hpa hpb hl hs' hpd
  have hR := moved_reach t hm he hD hpd hb ho
  have hT := moved_tree t hm he hD ⟨b1, b2⟩
  have hsz := size_moved fs d0 d0' i m m'
  generalize reparent (setEntry (dropEntry fs d0 m) d0' m' i) i d0' = gs at *
  simp only [List.dropLast_concat, if_true] at wa wb
  rw [walk_reach t hpd (fun _ => dir_nolink hDd)] at wa
  rw [walk_reach t hb (fun _ => dir_nolink hD)] at wb
  have la : pd.length ≤ fs.limit := by
    apply Classical.byContradiction; intro hc; rw [if_neg hc] at wa; cases wa
  have lb : pd'.length ≤ fs.limit := by
    apply Classical.byContradiction; intro hc; rw [if_neg hc] at wb; cases wb
  have gone : ∀ q, reach fs 0 (pd' ++ [m'] ++ q) = none := by
    intro q
    have : reach fs 0 (pd' ++ [m']) = none := by rw [reach_append, hb]; simp only [reach, hs2]
    rw [reach_append, this]
  have long : ∀ (q : List Name) (x : Name), ¬ q ++ [x] <+: q := by
    intro q x hc; have := hc.length_le; rw [List.length_append, List.length_singleton] at this; omega
  have hpd2 : reach gs 0 pd = some d0 := by
    refine (hR pd d0).2 (Or.inr ⟨?_, long pd m, hpd⟩)
    rintro ⟨s, hc⟩
    rw [← hc, gone] at hpd; cases hpd
  have hpb2 : reach gs 0 pd' = some d0' := by
    refine (hR pd' d0').2 (Or.inr ⟨long pd' m', ?_, hb⟩)
    rintro ⟨s, hc⟩
    rw [← hc, reach_append, ha] at hb
    exact ho s hb
  have pa : Plain gs pd m d0 := ⟨hpd2, (hm.dirs d0).2 hDd, ⟨a1, a2⟩, by rw [hm.limit]; exact la⟩
  have pb : Plain gs pd' m' d0' := ⟨hpb2, (hm.dirs d0').2 hD, ⟨b1, b2⟩, by rw [hm.limit]; exact lb⟩
  have ne : ¬ (d0 = d0' ∧ m = m') := by
    rintro ⟨rfl, rfl⟩; rw [he] at hs2; cases hs2
  have eb : inode gs d0' m' = some i := by rw [hm.inode, if_pos ⟨rfl, rfl⟩]
  have ea : inode gs d0 m = none := by rw [hm.inode, if_neg ne, if_pos ⟨rfl, rfl⟩]
  obtain ⟨v, hv⟩ := (C144_rename gs pd' pd m' m d0' d0 hT pb pa).1.2 ⟨i, eb, Or.inl ⟨ea, fun _ => by
    rintro ⟨s, hc⟩
    rw [← hc, gone] at hpd; cases hpd⟩⟩
  refine ⟨hv, ?_⟩
  obtain ⟨-, hsys2⟩ := rename_sys (rename_ok hv)
  generalize (Fs.rename none gs ⟨true, pd' ++ [m']⟩ ⟨true, pd ++ [m]⟩).2 = hs3 at *
  obtain ⟨e0, vp, fs1, x, e0', vp', fs2, x', j0, qa, qb, hl2, hcase⟩ := sysRename_spec hsys2
  obtain ⟨rfl, rfl⟩ := parent_reach hT qa hpb2 pb.isDir
  obtain ⟨rfl, rfl⟩ := parent_reach hT qb hpd2 pa.isDir
  obtain ⟨hd2, -⟩ := parent_ok qa
  obtain ⟨hd3, -⟩ := parent_ok qb
  have hj : j0 = i := by rw [entry_of hd2, hl2] at eb; cases eb; rfl
  subst hj
  rcases hcase with ⟨hc, -⟩ | ⟨-, rfl⟩
  · rw [entry_of hd3, hc] at ea; cases ea
  have hm2 := moved (i := j0) (n := x) (n' := x') hd2 hd3
  have hsz2 := size_moved gs e0 e0' j0 x x'
  generalize reparent (setEntry (dropEntry gs e0 x) e0' x' j0) j0 e0' = ks at *
  refine alike_of t o o2 ⟨hm2.cwd.trans hm.cwd, hm2.limit.trans hm.limit, hsz2.trans hsz, ?_⟩
  have hin : ∀ k y, inode ks k y = inode fs k y := by
    intro k y
    rw [hm2.inode, hm.inode]
    by_cases c1 : k = e0' ∧ y = x'
    · rw [if_pos c1, c1.1, c1.2, he]
    · rw [if_neg c1]
      by_cases c2 : k = e0 ∧ y = x
      · rw [if_pos c2, c2.1, c2.2, hs2]
      · rw [if_neg c2, if_neg c2, if_neg c1]
  intro k node hk
  have file : (∀ (u : Nat) (e : List (Name × Nat)), fs.nodes[k]? ≠ some (Node.dir u e)) → ∃ y, ks.nodes[k]? = some y ∧ Kin node y := by
    intro hno
    have h1 := hm.files k hno
    have h2 := hm2.files k (by rw [h1]; exact hno)
    exact ⟨node, by rw [h2, h1, hk], .refl _⟩
  cases node with
  | file c => exact file (by rw [hk]; intro u e h; cases h)
  | link c => exact file (by rw [hk]; intro u e h; cases h)
  | dir u e =>
    obtain ⟨e1, he1⟩ := hm.up k u e hk
    obtain ⟨e2, he2⟩ := hm2.up k _ e1 he1
    have hu : (if k = j0 then e0' else if k = j0 then e0 else u) = u := by
      by_cases hkj : k = j0
      · rw [if_pos hkj]
        obtain ⟨e3, he3⟩ := t.up e0' x' j0 he ⟨u, e, hkj ▸ hk⟩
        rw [← hkj, hk] at he3
        cases he3; rfl
      · rw [if_neg hkj, if_neg hkj]
    rw [hu] at he2
    refine ⟨_, he2, .dir u e e2 fun y => ?_⟩
    have := hin k y
    rw [entry_of he2, entry_of hk] at this
    exact this

/-- **C175.** Later calls do not notice either: in a file system without symbolic links, every history of calls with
absolute paths without `..` returns the same on two file systems that cannot be told apart, and leaves the same behind. -/
theorem C175_unnoticed {fs fs' : FS} (p : PlainDir fs [] 0) (t' : Tree fs') (hl : fs'.limit = fs.limit) (a : Alike fs fs')
    (ops : List Op) (h : ∀ op ∈ ops, ∀ x ∈ op.paths, x.abs = true ∧ x.names ≠ [] ∧ dotdot ∉ x.names) :
    results fs' ops = results fs ops ∧ SameBelow (runAll fs ops) 0 (runAll fs' ops) 0 := by
  have p' : PlainDir fs' [] 0 := by
    obtain ⟨es, h0⟩ := t'.top
    refine ⟨t', rfl, ⟨0, es, h0⟩, fun q k w hk hc => ?_⟩
    have hs := a.below.names q
    rw [hk] at hs
    cases hj : reach fs 0 q with
    | none => rw [hj] at hs; cases hs
    | some j =>
      rcases Iso.reach_some p hj with ⟨c, hf⟩ | hd
      · rw [(a.below.file q j k c hj hk).1 hf] at hc; cases hc
      · obtain ⟨u, e, hd⟩ := (a.below.dir q j k hj hk).1 hd
        rw [hd] at hc; cases hc
  have hu : ops.map (·.under []) = ops := by
    conv => rhs; rw [← List.map_id ops]
    refine List.map_congr_left fun op ho => ?_
    have e : ∀ x ∈ op.paths, (⟨true, [] ++ x.names⟩ : Path) = x := by
      intro x hx
      have h1 := (h op ho x hx).1
      cases x
      simp only at h1
      rw [h1]; rfl
    cases op <;> simp only [Op.under, id]
    case createDir f x => rw [e x (by simp [Op.paths])]
    case write cf wf x c => rw [e x (by simp [Op.paths])]
    case copy f x y => rw [e x (by simp [Op.paths]), e y (by simp [Op.paths])]
    case removeFile f x => rw [e x (by simp [Op.paths])]
    case removeDir f x => rw [e x (by simp [Op.paths])]
    case rename f x y => rw [e x (by simp [Op.paths]), e y (by simp [Op.paths])]
  obtain ⟨h1, h2, -⟩ := C174_location p p' a.below ops fun op ho x hx =>
    ⟨(h op ho x hx).2.1, (h op ho x hx).2.2, Or.inl ⟨hl.symm, rfl⟩⟩
  rw [hu] at h1 h2
  exact ⟨h1.symm, h2⟩

theorem Fs.blank_once : NamesOnce Fs.blank := by
  intro d up es h
  have hd : d < 1 := lt_of_node h
  have : d = 0 := by omega
  subst this
  have h0 : Fs.blank.nodes[0]? = some (.dir 0 []) := by decide +kernel
  rw [h0] at h; cases h; exact List.nodup_nil

/- The hypotheses hold in every file system that calls have made of an empty one, for example `Fs.twoDirs`. -/
example : Tree Fs.twoDirs ∧ NamesOnce Fs.twoDirs := ⟨Fs.twoDirs_hyps.1, runAll_once Fs.blank_once _⟩
/- CreateDir("/d/s/t"), Copy("/d/x", "/e/x") and Rename("/d", "/e/f") succeed there; `/d/n` is a name for Write. -/
example : (Fs.createDir none Fs.twoDirs ⟨true, [[100], [115], [116]]⟩).1 = Res.mkOk () ∧
    (Fs.copy none Fs.twoDirs ⟨true, [[100], [120]]⟩ ⟨true, [[101], [120]]⟩).1 = Res.mkOk () ∧
    (Fs.rename none Fs.twoDirs ⟨true, [] ++ [[100]]⟩ ⟨true, [[101]] ++ [[102]]⟩).1 = Res.mkOk () ∧
    reach Fs.twoDirs 0 ([] ++ [[100]]) = some 1 ∧ reach Fs.twoDirs 0 [[101]] = some 4 ∧
    inode Fs.twoDirs 4 [102] = none := by decide +kernel
example : Slot Fs.twoDirs ⟨true, [[100], [110]]⟩ 1 [110] ∧ inode Fs.twoDirs 1 [110] = none :=
  ⟨slot_parent.2 (by
    obtain ⟨up, es, h, -⟩ := parent_of (pd := [[100]]) (n := [110]) Fs.twoDirs_hyps.1 Fs.twoDirs_hyps.2.1 Fs.twoDirs_hyps.2.2.1
      (by decide) (by decide +kernel)
    exact ⟨up, es, h⟩), by decide +kernel⟩
/- After Rename("/d", "/e/f") and back, the entries of the root are in another order, but that cannot be seen. -/
example : (runAll Fs.twoDirs [.rename none ⟨true, [[100]]⟩ ⟨true, [[101], [102]]⟩,
      .rename none ⟨true, [[101], [102]]⟩ ⟨true, [[100]]⟩]).nodes ≠ Fs.twoDirs.nodes ∧
    Fs.read none none (runAll Fs.twoDirs [.rename none ⟨true, [[100]]⟩ ⟨true, [[101], [102]]⟩,
      .rename none ⟨true, [[101], [102]]⟩ ⟨true, [[100]]⟩]) ⟨true, [[100], [120]]⟩ = Res.mkOk [7] := by decide +kernel
/- A Rename onto a file cannot be undone: the file is lost. -/
example : Fs.read none none (runAll Fs.twoDirs [.rename none ⟨true, [[100], [120]]⟩ ⟨true, [[101], [121]]⟩,
      .rename none ⟨true, [[101], [121]]⟩ ⟨true, [[100], [120]]⟩]) ⟨true, [[101], [121]]⟩ = Res.mkErr (some .ENOENT) := by
  decide +kernel
/- Nor can a Write through a symbolic link to a name that is not there: RemoveFile removes the link, the file stays. -/
example : (resolve (runAll (addNode Fs.twoDirs 1 0 [([120], 2), ([115], 3)] [108] (.link ⟨true, [[101], [122]]⟩))
      [.write none none ⟨true, [[100], [108]]⟩ [1], .removeFile none ⟨true, [[100], [108]]⟩]) true ⟨true, [[101], [122]]⟩) =
    .found 7 := by decide +kernel
end Gost
