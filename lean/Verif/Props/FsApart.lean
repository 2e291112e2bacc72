import Verif.Props.FsUndo
import Verif.Props.FsConc
import Verif.Model.FsTasks
/-
Property C176: programs that work below directories of their own do not disturb each other, even if their system calls
are mixed.
-/
namespace Gost
open Os Fs Spec

namespace Fs
/-- The paths of a call. -/
def Call.paths : Call → List Path
  | .createDir p => [p]
  | .removeDir p => [p]
  | .write p _ => [p]
  | .removeFile p => [p]
  | .rename a b => [a, b]
  | .read p => [p]
  | .readDir p => [p]
  | .copy a b => [a, b]
/-- The paths a call will still use. -/
def Task.paths : Task → List Path
  | .start c => c.paths
  | .rmdir p _ => [p]
  | .onto a b _ => [a, b]
  | .moving a b => [a, b]
  | _ => []
/-- The inodes a call holds. -/
def Task.inodes : Task → List Nat
  | .writing i _ _ => [i]
  | .onto _ _ j => [j]
  | .opened i => [i]
  | .sized i _ => [i]
  | .listing i => [i]
  | _ => []
end Fs

namespace Spec
/-- The path starts with `/base` and goes on, without `..`. -/
def Within (base : List Name) (p : Path) : Prop := ∃ q, q ≠ [] ∧ dotdot ∉ q ∧ p = ⟨true, base ++ q⟩
end Spec

namespace Fs
namespace Apart
open Iso Confine Undo

variable {fs gs fs' : FS} {base : List Name} {a : Nat}

theorem below_of {p : Path} (h : Within base p) : Below fs base a p := by
  obtain ⟨q, h1, h2, rfl⟩ := h
  exact ⟨q, h1, h2, Or.inl ⟨rfl, rfl⟩⟩

/-- What one system call below the directory does. -/
structure Good (fs : FS) (a : Nat) (fs' : FS) : Prop where
  tree : Tree fs'
  eff : Confine.Eff (inside fs a) fs fs'
  size : fs'.dirSize = fs.dirSize
  once : NamesOnce fs → NamesOnce fs'

theorem good_refl (p : PlainDir fs base a) : Good fs a fs := by
  obtain ⟨bs, -⟩ := base_of p.tree p.at_ p.dir p.nolink
  exact ⟨p.tree, .refl bs.shut, rfl, id⟩

theorem plain_step (p : PlainDir fs base a) (g : Good fs a fs') : PlainDir fs' base a := by
  obtain ⟨bs, hout⟩ := base_of p.tree p.at_ p.dir p.nolink
  have e := g.eff
  refine ⟨g.tree, ?_, ?_, ?_⟩
  · rw [reach_same e.same hout]; exact p.at_
  · obtain ⟨u, es, hd⟩ := p.dir
    exact (e.dirs a (lt_of_node hd)).2 ⟨u, es, hd⟩
  · exact fun q k t h => e.shut.nolink k t (inside_reach e.shut (Or.inl ⟨[], rfl⟩) h)

theorem other_step {base2 : List Name} {a2 : Nat} (p : PlainDir fs base a) (p2 : PlainDir fs base2 a2)
    (ha : ApartDirs fs a a2) (g : Good fs a fs') :
    PlainDir fs' base2 a2 ∧ ApartDirs fs' a a2 ∧ (∀ q, reach fs' a2 q = reach fs a2 q) ∧
      ∀ q k, reach fs a2 q = some k → fs'.nodes[k]? = fs.nodes[k]? := by
  have e := g.eff
  have hno : ∀ q k, reach fs a2 q = some k → ¬ inside fs a k := by
    rintro q k hk (⟨q', hq⟩ | hl)
    · exact ha q' q k hq hk
    · have := reach_lt p2 hk; omega
  have hr : ∀ q, reach fs' a2 q = reach fs a2 q := fun q => reach_same e.same fun r1 x _ _ hx => hno r1 x hx
  have hn : ∀ q k, reach fs a2 q = some k → fs'.nodes[k]? = fs.nodes[k]? := fun q k hk => e.same k (hno q k hk)
  refine ⟨⟨g.tree, ?_, ?_, ?_⟩, ?_, hr, hn⟩
  · rw [reach_same e.same]
    · exact p2.at_
    · rintro r x ⟨r', rfl⟩ hne hx hin
      have h2 := p2.at_
      rw [reach_append, hx] at h2
      rcases hin with ⟨q, hq⟩ | hl
      · exact ha (q ++ r') [] a2 (by rw [reach_append, hq]; exact h2) rfl
      · have : x < fs.nodes.length := by
          rcases snoc_cases r with rfl | ⟨r'', n, rfl⟩
          · cases hx; obtain ⟨es, h0⟩ := p.tree.top; exact lt_of_node h0
          · obtain ⟨y, _, hy⟩ := reach_snoc.1 hx; exact p.tree.range y n x hy
        omega
  · obtain ⟨u, es, hd⟩ := p2.dir
    exact (e.dirs a2 (lt_of_node hd)).2 ⟨u, es, hd⟩
  · intro q k t hk
    rw [hr] at hk
    rw [hn q k hk]
    exact p2.nolink q k t hk
  · intro q q' k h1 h2
    rw [hr] at h2
    exact hno q' k h2 (inside_reach e.shut (Or.inl ⟨[], rfl⟩) h1)

/-- A system call that a whole call can consist of. -/
theorem good_op (p : PlainDir fs base a) (op : Op) (h : ∀ x ∈ op.paths, Within base x) (hr : op.run fs = fs')
    (hs : fs'.dirSize = fs.dirSize) : Good fs a fs' := by
  obtain ⟨bs, -⟩ := base_of p.tree p.at_ p.dir p.nolink
  subst hr
  exact ⟨(Op.run_tree p.tree op).1, run_eff bs (fun k hk => Or.inr hk) op fun x hx => below_of (h x hx), hs,
    fun o => Op.run_once o op⟩

theorem mkdir_good (p : PlainDir fs base a) {f : Option Errno} {x : Path} (hx : Within base x) (h : mkdir f fs x = .ok fs') :
    Good fs a fs' := by
  refine good_op p (.createDir f x) (by simpa [Op.paths] using hx) (by simp only [Op.run, Fs.createDir, h]) ?_
  unfold mkdir at h
  repeat' split at h
  all_goals cases h
  rfl

theorem unlink_good (p : PlainDir fs base a) {x : Path} (hx : Within base x) (h : unlink fs x = .ok fs') :
    Good fs a fs' := by
  refine good_op p (.removeFile none x) (by simpa [Op.paths] using hx) (by simp only [Op.run, Fs.removeFile, remove, h]) ?_
  unfold unlink at h
  repeat' split at h
  all_goals cases h
  rfl

theorem rmdir_good (p : PlainDir fs base a) {x : Path} (hx : Within base x) (h : Os.rmdir fs x = .ok fs') :
    Good fs a fs' := by
  have hu : ∃ e, unlink fs x = .error e := by
    unfold Os.rmdir at h
    unfold unlink
    match hp : parent fs x with
    | .error e => exact ⟨_, rfl⟩
    | .ok (d, up, es, n) =>
      rw [hp] at h
      simp only at h ⊢
      match hl : es.lookup n with
      | none => exact ⟨_, rfl⟩
      | some i =>
        rw [hl] at h
        simp only at h ⊢
        match hi : fs.nodes[i]? with
        | some (.dir _ _) => exact ⟨_, rfl⟩
        | some (.file _) => rw [hi] at h; cases h
        | some (.link _) => rw [hi] at h; cases h
        | none => rw [hi] at h; cases h
  obtain ⟨e, hu⟩ := hu
  refine good_op p (.removeFile none x) (by simpa [Op.paths] using hx) (by simp only [Op.run, Fs.removeFile, remove, hu, h]) ?_
  unfold Os.rmdir at h
  repeat' split at h
  all_goals cases h
  rfl

theorem link_good (p : PlainDir fs base a) {f : Option Errno} {x y : Path} (hx : Within base x) (hy : Within base y)
    (h : link f fs x y = .ok fs') : Good fs a fs' := by
  refine good_op p (.copy f x y) (by simpa [Op.paths] using ⟨hx, hy⟩) (by simp only [Op.run, Fs.copy, h]) ?_
  obtain ⟨-, i, d, up, es, n, -, -, -, -, rfl⟩ := link_spec h
  rfl

theorem create_good (p : PlainDir fs base a) {f : Option Errno} {x : Path} (hx : Within base x) {i : Nat}
    (h : create f fs x = .ok (i, fs')) : Good fs a fs' ∧ ∃ q, reach fs' a q = some i := by
  have hc := (create_spec h).2.1
  have hset : fs'.set i (.file []) = fs' := by
    have : fs'.nodes.set i (.file []) = fs'.nodes := by
      apply List.ext_getElem?
      intro k
      rw [List.getElem?_set]
      split
      · next e => subst e; rw [hc.2, if_pos (lt_of_node hc.2)]
      · rfl
    unfold FS.set
    rw [this]
  have hg : Good fs a fs' := by
    refine good_op p (.write f none x []) (by simpa [Op.paths] using hx)
      (by simp only [Op.run, Fs.write, h, fileWrite, hset]) ?_
    unfold create at h
    repeat' split at h
    all_goals cases h
    all_goals rfl
  have p1 := plain_step p hg
  obtain ⟨bs, -⟩ := base_of p1.tree p1.at_ p1.dir p1.nolink
  refine ⟨hg, ?_⟩
  rcases (resolve_below bs (below_of hx) (f := true)).1 i hc.1 with h1 | h1
  · exact h1
  · have := lt_of_node hc.2; omega

theorem sysRename_good (p : PlainDir fs base a) {x y : Path} (hx : Within base x) (hy : Within base y)
    (h : sysRename fs x y = .ok fs') : Good fs a fs' := by
  obtain ⟨b, -⟩ := base_of p.tree p.at_ p.dir p.nolink
  obtain ⟨d, up, es, n, d', up', es', n', i, hpa, hpb, hl, hcase⟩ := sysRename_spec h
  have ent : ∀ {d up : Nat} {es : List (Name × Nat)}, inside fs a d → fs.nodes[d]? = some (.dir up es) →
      ∀ n k, es.lookup n = some k → inside fs a k := fun hs hd n k hl => b.shut.closed _ n k hs (by rw [entry_of hd, hl])
  rcases hcase with ⟨_, rfl⟩ | ⟨hne, hfs⟩
  · exact good_refl p
  · have hs := Confine.parent_below b (below_of hx) hpa
    have hs' := Confine.parent_below b (below_of hy) hpb
    have hd := (parent_ok hpa).1
    obtain ⟨hd', b1, b2, -⟩ := parent_ok hpb
    have hi : inside fs a i := ent hs hd n i hl
    have hm : Moved fs fs' d n d' n' i := by rw [hfs]; exact moved hd hd'
    refine ⟨moved_tree p.tree hm (by rw [entry_of hd, hl]) ⟨_, _, hd'⟩ ⟨b1, b2⟩, ?_, ?_, fun o => ?_⟩
    · have e1 : Confine.Eff (inside fs a) fs (dropEntry fs d n) := by
        unfold dropEntry
        rw [hd]
        exact set_dir b.shut hs hd fun m k hm => ent hs hd m k (lookup_keep hm)
      have e2 : Confine.Eff (inside fs a) (dropEntry fs d n) (setEntry (dropEntry fs d n) d' n' i) := by
        unfold setEntry
        match h2 : (dropEntry fs d n).nodes[d']? with
        | some (.dir up2 es2) =>
          refine set_dir e1.shut hs' h2 fun m k hm => ?_
          rw [lookup_set] at hm
          split at hm
          · cases hm; exact hi
          · exact e1.shut.closed d' m k hs' (by rw [entry_of h2, hm])
        | some (.file c) => exact .refl e1.shut
        | some (.link t) => exact .refl e1.shut
        | none => exact .refl e1.shut
      have e3 : Confine.Eff (inside fs a) (setEntry (dropEntry fs d n) d' n' i)
          (reparent (setEntry (dropEntry fs d n) d' n' i) i d') := by
        unfold reparent
        match h3 : (setEntry (dropEntry fs d n) d' n' i).nodes[i]? with
        | some (.dir up3 es3) =>
          exact set_dir e2.shut hi h3 fun m k hm => e2.shut.closed i m k hi (by rw [entry_of h3, hm])
        | some (.file c) => exact .refl e2.shut
        | some (.link t) => exact .refl e2.shut
        | none => exact .refl e2.shut
      rw [hfs]
      exact (e1.trans e2).trans e3
    · rw [hfs]
      have h1 : (dropEntry fs d n).dirSize = fs.dirSize := by unfold dropEntry; split <;> rfl
      have h2 : ∀ gs : FS, (setEntry gs d' n' i).dirSize = gs.dirSize := by intro gs; unfold setEntry; split <;> rfl
      have h3 : ∀ gs : FS, (reparent gs i d').dirSize = gs.dirSize := by intro gs; unfold reparent; split <;> rfl
      rw [h3, h2, h1]
    · rw [hfs]
      exact once_reparent (once_setEntry (once_drop o d n) d' n' i) i d'

theorem writeAt_good (p : PlainDir fs base a) {i : Nat} {q : List Name} (h : reach fs a q = some i) (off : Nat)
    (data : List UInt8) : Good fs a (writeAt fs i off data) ∧ ∀ r, reach (writeAt fs i off data) a r = reach fs a r := by
  obtain ⟨b, -⟩ := base_of p.tree p.at_ p.dir p.nolink
  unfold writeAt
  match hi : fs.nodes[i]? with
  | some (.file old) =>
    obtain ⟨h1, h2⟩ := file_tree (c' := old.take off ++ List.replicate (off - old.length) 0 ++ data ++ old.drop (off + data.length))
      p.tree hi
    refine ⟨⟨h1, set_file b.shut (Or.inl ⟨q, h⟩) hi, rfl, fun o => once_set o hi fun u e h => by cases h⟩, ?_⟩
    intro r
    generalize hs : a = s
    clear hs
    induction r generalizing s with
    | nil => rfl
    | cons m r ih =>
      simp only [reach, h2]
      cases inode fs s m with
      | none => rfl
      | some x => exact ih x
  | some (.dir _ _) => exact ⟨good_refl p, fun _ => rfl⟩
  | some (.link _) => exact ⟨good_refl p, fun _ => rfl⟩
  | none => exact ⟨good_refl p, fun _ => rfl⟩

/-- The call only concerns what is below the directory. -/
structure Ok (fs : FS) (base : List Name) (a : Nat) (t : Task) : Prop where
  paths : ∀ p ∈ t.paths, Within base p
  inodes : ∀ i ∈ t.inodes, ∃ q, reach fs a q = some i

theorem ok_free {t : Task} (h1 : t.paths = []) (h2 : t.inodes = []) : Ok fs base a t :=
  ⟨by rw [h1]; exact fun _ h => (by cases h), by rw [h2]; exact fun _ h => (by cases h)⟩

theorem settle_good (p : PlainDir fs base a) {x : Except Errno FS} (h : ∀ fs', x = .ok fs' → Good fs a fs') :
    Good fs a (Task.settle fs x).2 ∧ Ok (Task.settle fs x).2 base a (Task.settle fs x).1 := by
  cases x with
  | error e => exact ⟨good_refl p, ok_free rfl rfl⟩
  | ok fs' => exact ⟨h fs' rfl, ok_free rfl rfl⟩

theorem found_below (p : PlainDir fs base a) {x : Path} (hx : Within base x) {f : Bool} {i : Nat}
    (h : resolve fs f x = .found i) : ∃ q, reach fs a q = some i := by
  obtain ⟨bs, -⟩ := base_of p.tree p.at_ p.dir p.nolink
  have s := iso_of_same (gs := fs) (b := a) p ⟨fun _ => rfl, fun q i j c h1 h2 => by rw [h1] at h2; cases h2; exact Iff.rfl,
    fun q i j h1 h2 => by rw [h1] at h2; cases h2; exact Iff.rfl,
    fun q q' i i' j j' h1 h2 h3 h4 => by rw [h1] at h3; rw [h2] at h4; cases h3; cases h4; exact Iff.rfl⟩
  obtain ⟨q, -, h2, rfl⟩ := hx
  have hw := resolve_both p p s ⟨[], rfl, rfl⟩ (f := f) h2 (Or.inl ⟨rfl, rfl⟩)
  rw [h] at hw
  cases hw with
  | found h => obtain ⟨r, h, -⟩ := h; exact ⟨r, h⟩

/-- One system call of a call. -/
theorem next_good (p : PlainDir fs base a) {t : Task} (ok : Ok fs base a t) (amount : Nat) (fault : Option Errno) :
    Good fs a (t.next amount fault fs).2 ∧ Ok (t.next amount fault fs).2 base a (t.next amount fault fs).1 := by
  have idle := good_refl p
  have unl : ∀ x, Within base x →
      Good fs a (Task.unlinkFirst fault fs x).2 ∧ Ok (Task.unlinkFirst fault fs x).2 base a (Task.unlinkFirst fault fs x).1 := by
    intro x hx
    unfold Task.unlinkFirst
    cases fault with
    | some e => exact ⟨idle, by simpa [Task.paths] using hx, by simp [Task.inodes]⟩
    | none =>
      simp only
      match hu : unlink fs x with
      | .ok fs' => exact ⟨unlink_good p hx hu, ok_free rfl rfl⟩
      | .error e => exact ⟨idle, by simpa [Task.paths] using hx, by simp [Task.inodes]⟩
  cases t with
  | idle => exact ⟨idle, ok⟩
  | done o => exact ⟨idle, ok⟩
  | start c =>
    cases c with
    | createDir x => exact settle_good p fun fs' h => mkdir_good p (ok.paths x (by simp [Task.paths, Call.paths])) h
    | removeDir x => exact unl x (ok.paths x (by simp [Task.paths, Call.paths]))
    | removeFile x => exact unl x (ok.paths x (by simp [Task.paths, Call.paths]))
    | copy x y =>
      exact settle_good p fun fs' h => link_good p (ok.paths x (by simp [Task.paths, Call.paths]))
        (ok.paths y (by simp [Task.paths, Call.paths])) h
    | write x data =>
      simp only [Task.next]
      match hc : create fault fs x with
      | .error e => exact ⟨idle, ok_free rfl rfl⟩
      | .ok (i, fs') =>
        obtain ⟨h1, h2⟩ := create_good p (ok.paths x (by simp [Task.paths, Call.paths])) hc
        exact ⟨h1, by simp [Task.paths], by simpa [Task.inodes] using h2⟩
    | rename x y =>
      have hx := ok.paths x (by simp [Task.paths, Call.paths])
      have hy := ok.paths y (by simp [Task.paths, Call.paths])
      have hmov : Ok fs base a (.moving x y) := ⟨by simpa [Task.paths] using ⟨hx, hy⟩, by simp [Task.inodes]⟩
      simp only [Task.next]
      cases fault with
      | some e => exact ⟨idle, hmov⟩
      | none =>
        simp only [lstat]
        match hr : resolve fs false y with
        | .fail e => exact ⟨idle, hmov⟩
        | .absent d n => exact ⟨idle, hmov⟩
        | .found j =>
          simp only
          split
          · exact ⟨idle, by simpa [Task.paths] using ⟨hx, hy⟩, by simpa [Task.inodes] using found_below p hy hr⟩
          · exact ⟨idle, hmov⟩
    | read x =>
      simp only [Task.next, open_]
      cases fault with
      | some e => exact ⟨idle, ok_free rfl rfl⟩
      | none =>
        simp only
        match hr : resolve fs true x with
        | .fail e => exact ⟨idle, ok_free rfl rfl⟩
        | .absent d n => exact ⟨idle, ok_free rfl rfl⟩
        | .found j =>
          exact ⟨idle, by simp [Task.paths], by
            simpa [Task.inodes] using found_below p (ok.paths x (by simp [Task.paths, Call.paths])) hr⟩
    | readDir x =>
      simp only [Task.next, open_]
      cases fault with
      | some e => exact ⟨idle, ok_free rfl rfl⟩
      | none =>
        simp only
        match hr : resolve fs true x with
        | .fail e => exact ⟨idle, ok_free rfl rfl⟩
        | .absent d n => exact ⟨idle, ok_free rfl rfl⟩
        | .found j =>
          exact ⟨idle, by simp [Task.paths], by
            simpa [Task.inodes] using found_below p (ok.paths x (by simp [Task.paths, Call.paths])) hr⟩
  | listing i =>
    simp only [Task.next]
    cases fault with
    | some e => exact ⟨idle, ok_free rfl rfl⟩
    | none => simp only; split <;> exact ⟨idle, ok_free rfl rfl⟩
  | writing i off data =>
    simp only [Task.next]
    cases fault with
    | some e => exact ⟨idle, ok_free rfl rfl⟩
    | none =>
      obtain ⟨q, hq⟩ := ok.inodes i (by simp [Task.inodes])
      obtain ⟨h1, h2⟩ := writeAt_good p hq off ((data.drop off).take amount)
      simp only
      split
      · exact ⟨h1, ok_free rfl rfl⟩
      · exact ⟨h1, by simp [Task.paths], by simpa [Task.inodes] using ⟨q, (h2 q).trans hq⟩⟩
  | rmdir x e =>
    simp only [Task.next]
    cases fault with
    | some e => exact ⟨idle, ok_free rfl rfl⟩
    | none =>
      simp only
      match hr : Os.rmdir fs x with
      | .ok fs' => exact ⟨rmdir_good p (ok.paths x (by simp [Task.paths])) hr, ok_free rfl rfl⟩
      | .error e' => exact ⟨idle, ok_free rfl rfl⟩
  | onto x y j =>
    simp only [Task.next]
    cases fault with
    | some e => exact ⟨idle, ok_free rfl rfl⟩
    | none =>
      simp only
      match hr : lstat fs x with
      | .error e => exact ⟨idle, ok_free rfl rfl⟩
      | .ok i =>
        simp only
        split
        · exact ⟨idle, ok_free rfl rfl⟩
        · exact ⟨idle, ok.paths, by simp [Task.inodes]⟩
  | moving x y =>
    simp only [Task.next]
    cases fault with
    | some e => exact ⟨idle, ok_free rfl rfl⟩
    | none =>
      exact settle_good p fun fs' h => sysRename_good p (ok.paths x (by simp [Task.paths])) (ok.paths y (by simp [Task.paths])) h
  | opened i =>
    simp only [Task.next]
    cases fault with
    | some e => exact ⟨idle, ok_free rfl rfl⟩
    | none => exact ⟨idle, by simp [Task.paths], ok.inodes⟩
  | sized i n =>
    simp only [Task.next]
    match hr : fileRead fault fs i n with
    | .error e => exact ⟨idle, ok_free rfl rfl⟩
    | .ok d => exact ⟨idle, ok_free rfl rfl⟩

/-! ### The same call in two file systems -/

/-- The calls are at the same point, with corresponding inodes. -/
inductive Rel (R : Nat → Nat → Prop) (gs : FS) : Task → Task → Prop
  | idle : Rel R gs .idle .idle
  | start (c : Call) : Rel R gs (.start c) (.start c)
  | writing {i j : Nat} (h : R i j) (off : Nat) (data : List UInt8) : Rel R gs (.writing i off data) (.writing j off data)
  | rmdir (x : Path) (e : Errno) : Rel R gs (.rmdir x e) (.rmdir x e)
  | onto (x y : Path) {i j : Nat} (h : R i j) : Rel R gs (.onto x y i) (.onto x y j)
  | moving (x y : Path) : Rel R gs (.moving x y) (.moving x y)
  | opened {i j : Nat} (h : R i j) : Rel R gs (.opened i) (.opened j)
  | listing {i j : Nat} (h : R i j) : Rel R gs (.listing i) (.listing j)
  | sized {i j n m : Nat} (h : R i j) (hs : n = m ∨ (n ≠ 0 ∧ m ≠ 0 ∧ IsDir gs j)) : Rel R gs (.sized i n) (.sized j m)
  | done (o : Outcome) : Rel R gs (.done o) (.done o)

/-- What the two calls have after the same step. -/
def Twin (a : Nat) (x y : Task × FS) : Prop := SameBelow x.2 a y.2 a ∧ Rel (via x.2 a y.2 a) y.2 x.1 y.1

theorem via_of {R : Nat → Nat → Prop} (s : Iso R fs gs) (ha : R a a) {i j : Nat} (h : R i j) {q : List Name}
    (hq : reach fs a q = some i) : via fs a gs a i j := by
  rcases reach_iso s ha q with ⟨h1, -⟩ | ⟨k, l, h1, h2, h3⟩
  · rw [hq] at h1; cases h1
  · rw [hq] at h1
    cases h1
    rw [s.left i l j h3 h] at h2
    exact ⟨q, hq, h2⟩

theorem settle_twin (hs : SameBelow fs a gs a) {x y : Except Errno FS} (h : Out a a x y) :
    Twin a (Task.settle fs x) (Task.settle gs y) := by
  rcases h with ⟨e, rfl, rfl⟩ | ⟨fs', gs', R, rfl, rfl, h1, h2⟩
  · exact ⟨hs, .done _⟩
  · exact ⟨same_of_iso h1 h2, .done _⟩

/-- The listings of corresponding directories. -/
theorem list_iso {R : Nat → Nat → Prop} (s : Iso R fs gs) (o : NamesOnce fs) (o' : NamesOnce gs) {d d' u u' : Nat}
    {es es' : List (Name × Nat)} (h : fs.nodes[d]? = some (.dir u es)) (h' : gs.nodes[d']? = some (.dir u' es'))
    (he : EntRel R es es') :
    ((es.mergeSort fun a b => nameLe a.1 b.1).map fun e => (⟨e.1, typeOf fs e.2⟩ : Os.DirEntry)) =
      (es'.mergeSort fun a b => nameLe a.1 b.1).map fun e => ⟨e.1, typeOf gs e.2⟩ := by
  have key : ∀ (fs : FS) (es : List (Name × Nat)),
      ((es.mergeSort fun a b => nameLe a.1 b.1).map fun e => (⟨e.1, typeOf fs e.2⟩ : Os.DirEntry)) =
        ((es.map fun e => (e.1, typeOf fs e.2)).mergeSort fun a b => nameLe a.1 b.1).map fun e => ⟨e.1, e.2⟩ := by
    intro fs es
    rw [← List.map_mergeSort (r := fun a b => nameLe a.1 b.1) fun _ _ _ _ => rfl, List.map_map]
    rfl
  have look : ∀ (fs : FS) (es : List (Name × Nat)) (n : Name),
      (es.map fun e => (e.1, typeOf fs e.2)).lookup n = (es.lookup n).map (typeOf fs) := by
    intro fs es n
    induction es with
    | nil => rfl
    | cons e es ih =>
      obtain ⟨m, k⟩ := e
      simp only [List.map_cons, List.lookup]
      cases n == m with
      | true => rfl
      | false => exact ih
  have once : ∀ (fs : FS) (es : List (Name × Nat)), (es.map (·.1)).Nodup →
      ((es.map fun e => (e.1, typeOf fs e.2)).map (·.1)).Nodup := by
    intro fs es h
    rw [List.map_map]
    exact h
  rw [key fs es, key gs es', sort_same (once gs es' (o' d' u' es' h')) (once fs es (o d u es h))]
  intro n
  rw [look, look]
  rcases he n with ⟨h1, h2⟩ | ⟨k, l, h1, h2, h3⟩
  · rw [h1, h2]; rfl
  · rw [h1, h2]
    simp only [Option.map_some]
    have hk := s.node k l h3
    unfold typeOf
    generalize fs.nodes[k]? = x at hk
    generalize gs.nodes[l]? = y at hk
    cases hk <;> rfl

theorem next_twin (p : PlainDir fs base a) (p' : PlainDir gs base a) (hs : SameBelow fs a gs a) (hl : fs.limit = gs.limit)
    (hz : ∀ i, fs.dirSize i ≠ 0) (hz' : ∀ i, gs.dirSize i ≠ 0) (o : NamesOnce fs) (o' : NamesOnce gs) {t t' : Task}
    (ok : Ok fs base a t)
    (r : Rel (via fs a gs a) gs t t') (amount : Nat) (fault : Option Errno) :
    Twin a (t.next amount fault fs) (t'.next amount fault gs) := by
  have s := iso_of_same p hs
  have hR : via fs a gs a a a := ⟨[], rfl, rfl⟩
  have fit : ∀ q, Fits fs base gs base q := fun q => Or.inl ⟨hl, rfl⟩
  have unl : ∀ x, Within base x → Twin a (Task.unlinkFirst fault fs x) (Task.unlinkFirst fault gs x) := by
    rintro x ⟨q, h1, h2, rfl⟩
    unfold Task.unlinkFirst
    cases fault with
    | some e => exact ⟨hs, .rmdir _ _⟩
    | none =>
      simp only
      rcases unlink_both p p' s hR h1 h2 (fit q) with ⟨e, e1, e2⟩ | ⟨fs', gs', R, e1, e2, e3, e4⟩
      · rw [e1, e2]; exact ⟨hs, .rmdir _ _⟩
      · rw [e1, e2]; exact ⟨same_of_iso e3 e4, .done _⟩
  cases r with
  | idle => exact ⟨hs, .idle⟩
  | done o => exact ⟨hs, .done o⟩
  | start c =>
    cases c with
    | createDir x =>
      obtain ⟨q, h1, h2, rfl⟩ := ok.paths x (by simp [Task.paths, Call.paths])
      exact settle_twin hs (mkdir_both p p' s hR h1 h2 (fit q) fault)
    | removeDir x => exact unl x (ok.paths x (by simp [Task.paths, Call.paths]))
    | removeFile x => exact unl x (ok.paths x (by simp [Task.paths, Call.paths]))
    | copy x y =>
      obtain ⟨q, h1, h2, rfl⟩ := ok.paths x (by simp [Task.paths, Call.paths])
      obtain ⟨q', h1', h2', rfl⟩ := ok.paths y (by simp [Task.paths, Call.paths])
      exact settle_twin hs (link_both p p' s hR h2 (fit q) h1' h2' (fit q') fault)
    | write x data =>
      have hx := ok.paths x (by simp [Task.paths, Call.paths])
      obtain ⟨q, h1, h2, rfl⟩ := id hx
      simp only [Task.next]
      rcases create_both p p' s hR h2 (fit q) fault with ⟨e, e1, e2⟩ | ⟨i, j, fs', gs', R, e1, e2, e3, e4, e5⟩
      · rw [e1, e2]; exact ⟨hs, .done _⟩
      · obtain ⟨-, q', hq'⟩ := create_good p hx e1
        rw [e1, e2]
        exact ⟨same_of_iso e3 e4, .writing (via_of e3 e4 e5 hq') _ _⟩
    | rename x y =>
      obtain ⟨q, h1, h2, rfl⟩ := ok.paths y (by simp [Task.paths, Call.paths])
      simp only [Task.next]
      cases fault with
      | some e => exact ⟨hs, .moving _ _⟩
      | none =>
        simp only [lstat]
        have hw := resolve_both p p' s hR (f := false) h2 (fit q)
        generalize resolve fs false ⟨true, base ++ q⟩ = u at hw
        generalize resolve gs false ⟨true, base ++ q⟩ = v at hw
        cases hw with
        | fail e => exact ⟨hs, .moving _ _⟩
        | absent n h => exact ⟨hs, .moving _ _⟩
        | @found k l hkl =>
          have hk := s.node k l hkl
          simp only
          generalize fs.nodes[k]? = u at hk
          generalize gs.nodes[l]? = v at hk
          cases hk with
          | file c => exact ⟨hs, .moving _ _⟩
          | dir _ => exact ⟨hs, .onto _ _ hkl⟩
    | read x =>
      obtain ⟨q, h1, h2, rfl⟩ := ok.paths x (by simp [Task.paths, Call.paths])
      simp only [Task.next, open_]
      cases fault with
      | some e => exact ⟨hs, .done _⟩
      | none =>
        simp only
        have hw := resolve_both p p' s hR (f := true) h2 (fit q)
        generalize resolve fs true ⟨true, base ++ q⟩ = u at hw
        generalize resolve gs true ⟨true, base ++ q⟩ = v at hw
        cases hw with
        | fail e => exact ⟨hs, .done _⟩
        | absent n h => exact ⟨hs, .done _⟩
        | found h => exact ⟨hs, .opened h⟩
    | readDir x =>
      obtain ⟨q, h1, h2, rfl⟩ := ok.paths x (by simp [Task.paths, Call.paths])
      simp only [Task.next, open_]
      cases fault with
      | some e => exact ⟨hs, .done _⟩
      | none =>
        simp only
        have hw := resolve_both p p' s hR (f := true) h2 (fit q)
        generalize resolve fs true ⟨true, base ++ q⟩ = u at hw
        generalize resolve gs true ⟨true, base ++ q⟩ = v at hw
        cases hw with
        | fail e => exact ⟨hs, .done _⟩
        | absent n h => exact ⟨hs, .done _⟩
        | found h => exact ⟨hs, .listing h⟩
  | @listing i j h =>
    simp only [Task.next]
    cases fault with
    | some e => exact ⟨hs, .done _⟩
    | none =>
      have hk := s.node i j h
      simp only
      generalize hx : fs.nodes[i]? = u at hk
      generalize hy : gs.nodes[j]? = v at hk
      cases hk with
      | file c => exact ⟨hs, .done _⟩
      | dir he =>
        simp only
        rw [list_iso s o o' hx hy he]
        exact ⟨hs, .done _⟩
  | @writing i j h off data =>
    simp only [Task.next]
    cases fault with
    | some e => exact ⟨hs, .done _⟩
    | none =>
      obtain ⟨q, hq, hq'⟩ := id h
      obtain ⟨-, h1⟩ := writeAt_good p hq off ((data.drop off).take amount)
      obtain ⟨-, h2⟩ := writeAt_good p' hq' off ((data.drop off).take amount)
      have hsame : SameBelow (writeAt fs i off ((data.drop off).take amount)) a
          (writeAt gs j off ((data.drop off).take amount)) a := by
        have hk := s.node i j h
        unfold writeAt
        generalize fs.nodes[i]? = u at hk
        generalize gs.nodes[j]? = v at hk
        cases hk with
        | file c => exact same_of_iso (set_iso s h (.file _)) hR
        | dir _ => exact hs
      simp only
      split
      · exact ⟨hsame, .done _⟩
      · exact ⟨hsame, .writing ⟨q, (h1 q).trans hq, (h2 q).trans hq'⟩ _ _⟩
  | rmdir x e =>
    obtain ⟨q, h1, h2, rfl⟩ := ok.paths x (by simp [Task.paths])
    simp only [Task.next]
    cases fault with
    | some e => exact ⟨hs, .done _⟩
    | none =>
      simp only
      rcases rmdir_both p p' s hR h1 h2 (fit q) with ⟨e, e1, e2⟩ | ⟨fs', gs', R, e1, e2, e3, e4⟩
      · rw [e1, e2]; exact ⟨hs, .done _⟩
      · rw [e1, e2]; exact ⟨same_of_iso e3 e4, .done _⟩
  | @onto x y k l hkl =>
    obtain ⟨q, h1, h2, rfl⟩ := ok.paths x (by simp [Task.paths])
    simp only [Task.next]
    cases fault with
    | some e => exact ⟨hs, .done _⟩
    | none =>
      simp only [lstat]
      have hw := resolve_both p p' s hR (f := false) h2 (fit q)
      generalize resolve fs false ⟨true, base ++ q⟩ = u at hw
      generalize resolve gs false ⟨true, base ++ q⟩ = v at hw
      cases hw with
      | fail e => exact ⟨hs, .done _⟩
      | absent n h => exact ⟨hs, .done _⟩
      | @found i j hij =>
        simp only
        have hiff : i ≠ k ↔ j ≠ l := by
          constructor
          · rintro h rfl; exact h (s.right i k j hij hkl)
          · rintro h rfl; exact h (s.left i j l hij hkl)
        by_cases hc : (⟨true, base ++ q⟩ : Path) = y ∨ i ≠ k
        · rw [if_pos hc, if_pos (hc.imp id hiff.1)]; exact ⟨hs, .done _⟩
        · rw [if_neg hc, if_neg fun h => hc (h.imp id hiff.2)]; exact ⟨hs, .moving _ _⟩
  | moving x y =>
    obtain ⟨q, h1, h2, rfl⟩ := ok.paths x (by simp [Task.paths])
    obtain ⟨q', h1', h2', rfl⟩ := ok.paths y (by simp [Task.paths])
    simp only [Task.next]
    cases fault with
    | some e => exact ⟨hs, .done _⟩
    | none => exact settle_twin hs (sysRename_both p p' hs h1 h2 (fit q) h1' h2' (fit q'))
  | @opened i j h =>
    simp only [Task.next]
    cases fault with
    | some e => exact ⟨hs, .done _⟩
    | none =>
      refine ⟨hs, .sized h ?_⟩
      have hk := s.node i j h
      unfold Os.size IsDir
      generalize fs.nodes[i]? = u at hk
      generalize gs.nodes[j]? = v at hk
      cases hk with
      | file c => exact Or.inl rfl
      | dir _ => exact Or.inr ⟨hz i, hz' j, _, _, rfl⟩
  | @sized i j n m h hn =>
    have hk := s.node i j h
    have key : fileRead fault fs i n = fileRead fault gs j m := by
      unfold fileRead
      rcases hn with rfl | ⟨h1, h2, u', es', hj⟩
      · split
        · rfl
        · cases fault with
          | some e => rfl
          | none =>
            generalize fs.nodes[i]? = u at hk
            generalize gs.nodes[j]? = v at hk
            cases hk <;> rfl
      · rw [if_neg h1, if_neg h2]
        cases fault with
        | some e => rfl
        | none =>
          rw [hj] at hk ⊢
          generalize fs.nodes[i]? = u at hk
          cases hk
          rfl
    simp only [Task.next, key]
    match hr : fileRead fault gs j m with
    | .error e => exact ⟨hs, .done _⟩
    | .ok d => exact ⟨hs, .done _⟩

/-! ### Programs -/

variable {plan : Plan}

/-- The plan only uses paths below the directory. -/
def Plans (plan : Plan) (base : List Name) : Prop := ∀ out c, plan out = some c → ∀ x ∈ c.paths, Within base x

theorem begin_ok (hp : Plans plan base) (out : List Outcome) : Ok fs base a (plan.begin out).now := by
  unfold Plan.begin
  match h : plan out with
  | none => exact ok_free rfl rfl
  | some c => exact ⟨hp out c h, by simp [Task.inodes]⟩

theorem step_good (p : PlainDir fs base a) (hp : Plans plan base) {g : Prog} (ok : Ok fs base a g.now) (amount : Nat)
    (fault : Option Errno) :
    Good fs a (Prog.step plan amount fault (fs, g)).1 ∧
      Ok (Prog.step plan amount fault (fs, g)).1 base a (Prog.step plan amount fault (fs, g)).2.now := by
  obtain ⟨h1, h2⟩ := next_good p ok amount fault
  unfold Prog.step
  simp only
  match hn : g.now.next amount fault fs with
  | (t, fs') =>
    rw [hn] at h1 h2
    cases t <;> first | exact ⟨h1, begin_ok hp _⟩ | exact ⟨h1, h2⟩

theorem begin_rel {R : Nat → Nat → Prop} (out : List Outcome) : Rel R gs (plan.begin out).now (plan.begin out).now := by
  unfold Plan.begin
  match plan out with
  | none => exact .idle
  | some c => exact .start c

theorem step_twin (p : PlainDir fs base a) (p' : PlainDir gs base a) (hs : SameBelow fs a gs a) (hl : fs.limit = gs.limit)
    (hz : ∀ i, fs.dirSize i ≠ 0) (hz' : ∀ i, gs.dirSize i ≠ 0) (o : NamesOnce fs) (o' : NamesOnce gs) {g g' : Prog}
    (ok : Ok fs base a g.now)
    (r : Rel (via fs a gs a) gs g.now g'.now) (ho : g.out = g'.out) (amount : Nat) (fault : Option Errno) :
    SameBelow (Prog.step plan amount fault (fs, g)).1 a (Prog.step plan amount fault (gs, g')).1 a ∧
    Rel (via (Prog.step plan amount fault (fs, g)).1 a (Prog.step plan amount fault (gs, g')).1 a)
      (Prog.step plan amount fault (gs, g')).1 (Prog.step plan amount fault (fs, g)).2.now
      (Prog.step plan amount fault (gs, g')).2.now ∧
    (Prog.step plan amount fault (fs, g)).2.out = (Prog.step plan amount fault (gs, g')).2.out := by
  obtain ⟨h1, h2⟩ := next_twin p p' hs hl hz hz' o o' ok r amount fault
  unfold Prog.step
  simp only
  match hn : g.now.next amount fault fs, hn' : g'.now.next amount fault gs with
  | (t, fs'), (t', gs') =>
    rw [hn, hn'] at h1 h2
    simp only at h1 h2
    cases h2 with
    | done o =>
      simp only [ho]
      exact ⟨h1, begin_rel _, trivial⟩
    | idle => exact ⟨h1, .idle, ho⟩
    | start c => exact ⟨h1, .start c, ho⟩
    | writing h off data => exact ⟨h1, .writing h off data, ho⟩
    | rmdir x e => exact ⟨h1, .rmdir x e, ho⟩
    | onto x y h => exact ⟨h1, .onto x y h, ho⟩
    | moving x y => exact ⟨h1, .moving x y, ho⟩
    | opened h => exact ⟨h1, .opened h, ho⟩
    | listing h => exact ⟨h1, .listing h, ho⟩
    | sized h hs => exact ⟨h1, .sized h hs, ho⟩

/-! ### All programs -/

theorem Rel.mono {R R' : Nat → Nat → Prop} (h : ∀ i j, R i j → R' i j) {t t' : Task} (r : Rel R gs t t') : Rel R' gs t t' := by
  cases r with
  | done o => exact .done o
  | idle => exact .idle
  | start c => exact .start c
  | writing k off data => exact .writing (h _ _ k) off data
  | rmdir x e => exact .rmdir x e
  | onto x y k => exact .onto x y (h _ _ k)
  | moving x y => exact .moving x y
  | opened k => exact .opened (h _ _ k)
  | listing k => exact .listing (h _ _ k)
  | sized k hs => exact .sized (h _ _ k) hs

variable {ι : Type} [DecidableEq ι] {plans : ι → Plan} {bases : ι → List Name} {tops : ι → Nat}

/-- Everybody is in a directory of its own. -/
structure All (plans : ι → Plan) (bases : ι → List Name) (tops : ι → Nat) (s : FS × (ι → Prog)) : Prop where
  plain : ∀ k, PlainDir s.1 (bases k) (tops k)
  apart : ∀ j k, j ≠ k → ApartDirs s.1 (tops j) (tops k)
  ok : ∀ k, Ok s.1 (bases k) (tops k) (s.2 k).now
  size : ∀ i, s.1.dirSize i ≠ 0
  once : NamesOnce s.1

/-- One of them is where it would be alone. -/
structure Own (bases : ι → List Name) (tops : ι → Nat) (k : ι) (s : FS × (ι → Prog)) (s' : FS × Prog) : Prop where
  plain : PlainDir s'.1 (bases k) (tops k)
  ok : Ok s'.1 (bases k) (tops k) s'.2.now
  size : ∀ i, s'.1.dirSize i ≠ 0
  once : NamesOnce s'.1
  limit : s.1.limit = s'.1.limit
  same : SameBelow s.1 (tops k) s'.1 (tops k)
  rel : Rel (via s.1 (tops k) s'.1 (tops k)) s'.1 (s.2 k).now s'.2.now
  out : (s.2 k).out = s'.2.out

theorem run_all (hp : ∀ k, Plans (plans k) (bases k)) {k : ι} (sched : List (ι × Nat × Option Errno)) {s : FS × (ι → Prog)}
    {s' : FS × Prog} (w : All plans bases tops s) (o : Own bases tops k s s') :
    All plans bases tops (runApart plans s sched) ∧
    Own bases tops k (runApart plans s sched) (runAlone (plans k) s' ((sched.filter (·.1 = k)).map (·.2))) := by
  induction sched generalizing s s' with
  | nil => exact ⟨w, o⟩
  | cons x sched ih =>
    obtain ⟨j, amount, fault⟩ := x
    obtain ⟨g1, g2⟩ := step_good (w.plain j) (hp j) (w.ok j) amount fault
    have hoth : ∀ l, l ≠ j → _ := fun l hl => other_step (w.plain j) (w.plain l) (w.apart j l fun e => hl e.symm) g1
    have w' : All plans bases tops ((Prog.step (plans j) amount fault (s.1, s.2 j)).1,
        fun l => if l = j then (Prog.step (plans j) amount fault (s.1, s.2 j)).2 else s.2 l) := by
      refine ⟨?_, ?_, ?_, ?_, g1.once w.once⟩
      · intro l
        by_cases hl : l = j
        · subst hl; exact plain_step (w.plain l) g1
        · exact (hoth l hl).1
      · intro l m hlm
        by_cases hl : l = j
        · subst hl; exact (hoth m fun e => hlm e.symm).2.1
        · by_cases hm : m = j
          · subst hm; exact apart_symm (hoth l hl).2.1
          · intro q q' i h1 h2
            rw [(hoth l hl).2.2.1] at h1
            rw [(hoth m hm).2.2.1] at h2
            exact w.apart l m hlm q q' i h1 h2
      · intro l
        by_cases hl : l = j
        · subst hl; simp only [if_true]; exact g2
        · simp only [if_neg hl]
          refine ⟨(w.ok l).paths, fun i hi => ?_⟩
          obtain ⟨q, hq⟩ := (w.ok l).inodes i hi
          exact ⟨q, ((hoth l hl).2.2.1 q).trans hq⟩
      · exact fun i h => w.size i ((congrFun g1.size i).symm.trans h)
    have hrun : runApart plans s ((j, amount, fault) :: sched) = runApart plans
        ((Prog.step (plans j) amount fault (s.1, s.2 j)).1,
          fun l => if l = j then (Prog.step (plans j) amount fault (s.1, s.2 j)).2 else s.2 l) sched := rfl
    rw [hrun]
    by_cases hk : j = k
    · subst hk
      have hf : ((((j, amount, fault) :: sched).filter (·.1 = j)).map (·.2)) =
          (amount, fault) :: (sched.filter (·.1 = j)).map (·.2) := by simp
      rw [hf]
      obtain ⟨k1, k2⟩ := step_good o.plain (hp j) o.ok amount fault
      obtain ⟨t1, t2, t3⟩ := step_twin (plan := plans j) (w.plain j) o.plain o.same o.limit w.size o.size w.once o.once
        (w.ok j) o.rel o.out amount fault
      refine ih w' (s' := Prog.step (plans j) amount fault s') ⟨plain_step o.plain k1, k2, ?_, k1.once o.once, ?_, t1, ?_, ?_⟩
      · exact fun i h => o.size i ((congrFun k1.size i).symm.trans h)
      · exact (g1.eff.limit.trans o.limit).trans k1.eff.limit.symm
      · simp only [if_true]; exact t2
      · simp only [if_true]; exact t3
    · have hf : ((((j, amount, fault) :: sched).filter (·.1 = k)).map (·.2)) = (sched.filter (·.1 = k)).map (·.2) := by
        simp [hk]
      rw [hf]
      obtain ⟨z1, z2, z3, z4⟩ := hoth k fun e => hk e.symm
      refine ih w' ⟨o.plain, o.ok, o.size, o.once, g1.eff.limit.trans o.limit, same_left o.same z3 z4, ?_, ?_⟩
      · simp only [if_neg fun e : k = j => hk e.symm]
        refine o.rel.mono ?_
        rintro i l ⟨q, h1, h2⟩
        exact ⟨q, (z3 q).trans h1, h2⟩
      · simp only [if_neg fun e : k = j => hk e.symm]; exact o.out

theorem same_refl (fs : FS) (a : Nat) : SameBelow fs a fs a :=
  ⟨fun _ => rfl, fun q i j c h1 h2 => by rw [h1] at h2; cases h2; exact Iff.rfl,
    fun q i j h1 h2 => by rw [h1] at h2; cases h2; exact Iff.rfl,
    fun q q' i i' j j' h1 h2 h3 h4 => by rw [h1] at h3; rw [h2] at h4; cases h3; cases h4; exact Iff.rfl⟩
end Apart
end Fs

open Fs.Apart in
/-- C176: programs that work below directories of their own do not disturb each other.  Any number of programs make calls
of CreateDir, RemoveDir, Write, RemoveFile, Rename, Read, ReadDir and Copy, each with paths below a directory of its own, and
each chooses the next call by what the calls before have returned.  The directories have nothing in common and no
symbolic links.  The calls are mixed system call by system call, a write may be cut anywhere, and system calls may
fail.  Then each program gets the results it gets if it runs alone, no matter what the others do and where they are
interrupted, and below its directory there is what there is if it runs alone. -/
theorem C176_apart {ι : Type} [DecidableEq ι] (fs : FS) (plan : ι → Plan) (base : ι → List Name) (top : ι → Nat)
    (hd : ∀ k, PlainDir fs (base k) (top k)) (ha : ∀ j k, j ≠ k → ApartDirs fs (top j) (top k))
    (hp : ∀ k out c, plan k out = some c → ∀ x ∈ c.paths, Within (base k) x) (hz : ∀ i, fs.dirSize i ≠ 0) (hn : NamesOnce fs)
    (sched : List (ι × Nat × Option Errno)) (k : ι) :
    let all := runApart plan (fs, fun k => (plan k).begin []) sched
    let alone := runAlone (plan k) (fs, (plan k).begin []) ((sched.filter (·.1 = k)).map (·.2))
    (all.2 k).out = alone.2.out ∧ SameBelow all.1 (top k) alone.1 (top k) ∧ ((all.2 k).now = .idle ↔ alone.2.now = .idle) := by
  have w : All plan base top (fs, fun k => (plan k).begin []) := ⟨hd, ha, fun k => begin_ok (hp k) [], hz, hn⟩
  obtain ⟨-, o⟩ := run_all hp sched w (k := k) (s' := (fs, (plan k).begin []))
    ⟨hd k, begin_ok (hp k) [], hz, hn, rfl, same_refl fs (top k), begin_rel [], rfl⟩
  refine ⟨o.out, o.same, ?_⟩
  have hr := o.rel
  generalize ((runApart plan (fs, fun k => (plan k).begin []) sched).2 k).now = t at hr ⊢
  generalize (runAlone (plan k) (fs, (plan k).begin []) ((sched.filter (·.1 = k)).map (·.2))).2.now = t' at hr ⊢
  cases hr <;> exact ⟨fun h => (by cases h; try rfl), fun h => (by cases h; try rfl)⟩

namespace Fs
/-- A call of fs.go that nobody interrupts and no failure hits. -/
def Call.whole (fs : FS) : Call → Outcome × FS
  | .createDir p => (.unit (Fs.createDir none fs p).1, (Fs.createDir none fs p).2)
  | .removeDir p => (.unit (Fs.removeDir none fs p).1, (Fs.removeDir none fs p).2)
  | .write p data => (.unit (Fs.write none none fs p data).1, (Fs.write none none fs p data).2)
  | .removeFile p => (.unit (Fs.removeFile none fs p).1, (Fs.removeFile none fs p).2)
  | .rename a b => (.unit (Fs.rename none fs a b).1, (Fs.rename none fs a b).2)
  | .read p => (.data (Fs.read none none fs p), fs)
  | .readDir p => (.list (match Os.readDir none fs p with | .error e => Res.mkErr (some e) | .ok l => Res.mkOk l), fs)
  | .copy a b => (.unit (Fs.copy none fs a b).1, (Fs.copy none fs a b).2)

/-- The first `n` calls of a program, one after another, each at once. -/
def Plan.calls (plan : Plan) (s : FS × List Outcome) : Nat → FS × List Outcome
  | 0 => s
  | n + 1 =>
    match plan (plan.calls s n).2 with
    | none => plan.calls s n
    | some c => ((c.whole (plan.calls s n).1).2, (plan.calls s n).2 ++ [(c.whole (plan.calls s n).1).1])

namespace Apart
/-- In the middle of a call that began in `fs0`. -/
inductive Mid (c : Call) (fs0 : FS) : Task → FS → Prop
  | start : Mid c fs0 (.start c) fs0
  | rmdir {x : Path} {e : Errno} (h : c = .removeDir x ∨ c = .removeFile x) (hu : unlink fs0 x = .error e) :
    Mid c fs0 (.rmdir x e) fs0
  | onto {x y : Path} {j u : Nat} {es : List (Name × Nat)} (h : c = .rename x y) (hl : lstat fs0 y = .ok j)
    (hj : fs0.nodes[j]? = some (.dir u es)) : Mid c fs0 (.onto x y j) fs0
  | moving {x y : Path} (h : c = .rename x y) (hr : Os.rename none fs0 x y = sysRename fs0 x y) : Mid c fs0 (.moving x y) fs0
  | opened {x : Path} {i : Nat} (h : c = .read x) (ho : open_ none fs0 x = .ok i) : Mid c fs0 (.opened i) fs0
  | sized {x : Path} {i : Nat} (h : c = .read x) (ho : open_ none fs0 x = .ok i) : Mid c fs0 (.sized i (Os.size fs0 i)) fs0
  | listing {x : Path} {i : Nat} (h : c = .readDir x) (ho : open_ none fs0 x = .ok i) : Mid c fs0 (.listing i) fs0
  | writing {x : Path} {data : List UInt8} {i off : Nat} {fs1 : FS} (h : c = .write x data)
    (hc : create none fs0 x = .ok (i, fs1)) (ho : off ≤ data.length) :
    Mid c fs0 (.writing i off data) (fs1.set i (.file (data.take off)))

theorem set_set {fs : FS} {i : Nat} {x y : Node} : (fs.set i x).set i y = fs.set i y := by
  unfold FS.set
  simp

theorem settle_whole {fs : FS} {x : Except Errno FS} :
    Task.settle fs x = (.done (.unit (match x with | .error e => Res.mkErr (some e) | .ok _ => Res.mkOk ())),
      match x with | .error _ => fs | .ok fs' => fs') := by
  cases x <;> rfl

theorem readDir_open {fs : FS} {x : Path} : Os.readDir none fs x =
    match open_ none fs x with
    | .error e => .error e
    | .ok i =>
      match fs.nodes[i]? with
      | some (.dir _ entries) => .ok ((entries.mergeSort fun a b => nameLe a.1 b.1).map fun e => ⟨e.1, typeOf fs e.2⟩)
      | _ => .error .ENOTDIR := by
  unfold Os.readDir open_
  simp only
  match resolve fs true x with
  | .fail e => rfl
  | .absent d n => rfl
  | .found i => rfl

theorem mid_next {c : Call} {fs0 fs : FS} {t : Task} (m : Mid c fs0 t fs) (amount : Nat) :
    t.next amount none fs = (.done (c.whole fs0).1, (c.whole fs0).2) ∨
    (Mid c fs0 (t.next amount none fs).1 (t.next amount none fs).2 ∧ ∀ o, (t.next amount none fs).1 ≠ .done o) := by
  cases m with
  | start =>
    cases c with
    | createDir x =>
      refine Or.inl (settle_whole.trans ?_)
      simp only [Call.whole, Fs.createDir]
      cases mkdir none fs0 x <;> rfl
    | copy x y =>
      refine Or.inl (settle_whole.trans ?_)
      simp only [Call.whole, Fs.copy]
      cases link none fs0 x y <;> rfl
    | removeDir x =>
      simp only [Task.next, Task.unlinkFirst]
      match hu : unlink fs0 x with
      | .ok fs0' => exact Or.inl (by simp only [Call.whole, Fs.removeDir, remove, hu])
      | .error e => exact Or.inr ⟨.rmdir (Or.inl rfl) hu, fun o h => by cases h⟩
    | removeFile x =>
      simp only [Task.next, Task.unlinkFirst]
      match hu : unlink fs0 x with
      | .ok fs0' => exact Or.inl (by simp only [Call.whole, Fs.removeFile, remove, hu])
      | .error e => exact Or.inr ⟨.rmdir (Or.inr rfl) hu, fun o h => by cases h⟩
    | write x data =>
      simp only [Task.next]
      match hc : create none fs0 x with
      | .error e => exact Or.inl (by simp only [Call.whole, Fs.write, hc])
      | .ok (i, fs1) =>
        have hs : fs1 = fs1.set i (.file (data.take 0)) := by
          have h2 := (create_spec hc).2.1.2
          have : fs1.nodes.set i (.file []) = fs1.nodes := by
            apply List.ext_getElem?
            intro k
            rw [List.getElem?_set]
            split
            · next e => subst e; rw [h2, if_pos (lt_of_node h2)]
            · rfl
          unfold FS.set
          rw [List.take_zero, this]
        refine Or.inr ⟨?_, fun o h => by cases h⟩
        have := Mid.writing (c := .write x data) (fs0 := fs0) rfl hc (Nat.zero_le data.length)
        rw [← hs] at this
        exact this
    | rename x y =>
      simp only [Task.next]
      match hl : lstat fs0 y with
      | .error e => exact Or.inr ⟨.moving rfl (by simp only [Os.rename, hl]), fun o h => by cases h⟩
      | .ok j =>
        simp only
        match hj : fs0.nodes[j]? with
        | some (.dir u es) => exact Or.inr ⟨.onto rfl hl hj, fun o h => by cases h⟩
        | some (.file c) => exact Or.inr ⟨.moving rfl (by simp only [Os.rename, hl, hj]), fun o h => by cases h⟩
        | some (.link c) => exact Or.inr ⟨.moving rfl (by simp only [Os.rename, hl, hj]), fun o h => by cases h⟩
        | none => exact Or.inr ⟨.moving rfl (by simp only [Os.rename, hl, hj]), fun o h => by cases h⟩
    | read x =>
      simp only [Task.next]
      match ho : open_ none fs0 x with
      | .error e => exact Or.inl (by simp only [Call.whole, Fs.read, ho])
      | .ok i => exact Or.inr ⟨.opened rfl ho, fun o h => by cases h⟩
    | readDir x =>
      simp only [Task.next]
      match ho : open_ none fs0 x with
      | .error e => exact Or.inl (by simp only [Call.whole, readDir_open, ho])
      | .ok i => exact Or.inr ⟨.listing rfl ho, fun o h => by cases h⟩
  | @rmdir x e h hu =>
    left
    simp only [Task.next]
    rcases h with rfl | rfl <;> cases hr : Os.rmdir fs0 x <;>
      exact (by simp only [Call.whole, Fs.removeDir, Fs.removeFile, remove, hu, hr])
  | @onto x y j u es h hl hj =>
    subst h
    simp only [Task.next]
    match hx : lstat fs0 x with
    | .error e =>
      exact Or.inl (by simp only [Call.whole, Fs.rename, Os.rename, hl, hj, hx])
    | .ok i =>
      simp only
      by_cases hc : x = y ∨ i ≠ j
      · rw [if_pos hc]
        exact Or.inl (by simp only [Call.whole, Fs.rename, Os.rename, hl, hj, hx, if_pos hc])
      · rw [if_neg hc]
        exact Or.inr ⟨.moving rfl (by simp only [Os.rename, hl, hj, hx, if_neg hc]), fun o h => by cases h⟩
  | @moving x y h hr =>
    subst h
    refine Or.inl (settle_whole.trans ?_)
    simp only [Call.whole, Fs.rename, hr]
    cases sysRename fs0 x y <;> rfl
  | @opened x i h ho => exact Or.inr ⟨.sized h ho, fun o h => by cases h⟩
  | @sized x i h ho =>
    subst h
    simp only [Task.next]
    match hr : fileRead none fs0 i (Os.size fs0 i) with
    | .error e => exact Or.inl (by simp only [Call.whole, Fs.read, ho, hr])
    | .ok d => exact Or.inl (by simp only [Call.whole, Fs.read, ho, hr])
  | @listing x i h ho =>
    subst h
    simp only [Task.next]
    match hn : fs0.nodes[i]? with
    | some (.dir u es) => exact Or.inl (by simp only [Call.whole, readDir_open, ho, hn])
    | some (.file c) => exact Or.inl (by simp only [Call.whole, readDir_open, ho, hn])
    | some (.link c) => exact Or.inl (by simp only [Call.whole, readDir_open, ho, hn])
    | none => exact Or.inl (by simp only [Call.whole, readDir_open, ho, hn])
  | @writing x data i off fs1 h hc ho =>
    subst h
    have hi := (create_spec hc).2.1.2
    have hn : (fs1.set i (.file (data.take off))).nodes[i]? = some (.file (data.take off)) := by
      exact (get_set hi).trans (if_pos rfl)
    have hlen : (data.take off).length = off := by rw [List.length_take]; omega
    have hw : writeAt (fs1.set i (.file (data.take off))) i off ((data.drop off).take amount) =
        fs1.set i (.file (data.take (off + ((data.drop off).take amount).length))) := by
      rw [writeAt_eq hn off (by omega), set_set]
      have e1 : (data.take off).take off = data.take off := by rw [List.take_take, Nat.min_self]
      have e2 : (data.take off).drop (off + ((data.drop off).take amount).length) = [] := by
        rw [List.drop_eq_nil_iff]; omega
      rw [e1, e2, List.append_nil, List.take_add]
      congr 3
      rw [List.length_take]
      by_cases h : amount ≤ (data.drop off).length
      · rw [Nat.min_eq_left h]
      · rw [Nat.min_eq_right (by omega), List.take_of_length_le (by omega), List.take_length]
    simp only [Task.next, hw]
    split
    · next hle =>
      left
      simp only [Call.whole, Fs.write, hc, fileWrite]
      rw [List.take_of_length_le hle]
    · next hle => exact Or.inr ⟨.writing rfl hc (by omega), fun o h => by cases h⟩

/-- Where a program is after its first `n` calls. -/
def At (plan : Plan) (fs0 : FS) (s : FS × Prog) : Prop :=
  ∃ n, s.2.out = (plan.calls (fs0, []) n).2 ∧
    ((plan s.2.out = none ∧ s.2.now = .idle ∧ s.1 = (plan.calls (fs0, []) n).1) ∨
      ∃ c, plan s.2.out = some c ∧ Mid c (plan.calls (fs0, []) n).1 s.2.now s.1)

theorem at_begin {plan : Plan} {fs0 fs : FS} {out : List Outcome} {n : Nat} (h : plan.calls (fs0, []) n = (fs, out)) :
    At plan fs0 (fs, plan.begin out) := by
  refine ⟨n, ?_⟩
  unfold Plan.begin
  rw [h]
  match hp : plan out with
  | none => exact ⟨rfl, Or.inl ⟨hp, rfl, rfl⟩⟩
  | some c => exact ⟨rfl, Or.inr ⟨c, hp, .start⟩⟩

theorem at_step {plan : Plan} {fs0 : FS} {s : FS × Prog} (h : At plan fs0 s) (amount : Nat) :
    At plan fs0 (Prog.step plan amount none s) := by
  obtain ⟨fs, t, out⟩ := s
  obtain ⟨n, h1, h2⟩ := h
  simp only at h1 h2
  rcases h2 with ⟨h2, h3, h4⟩ | ⟨c, h2, h3⟩
  · subst h3
    exact ⟨n, h1, Or.inl ⟨h2, rfl, h4⟩⟩
  · rcases mid_next h3 amount with k1 | ⟨k1, k2⟩
    · unfold Prog.step
      simp only [k1]
      refine at_begin (n := n + 1) ?_
      rw [Plan.calls, ← h1]
      simp only [h2]
    · unfold Prog.step
      match hn : t.next amount none fs with
      | (t', fs') =>
        rw [hn] at k1 k2
        simp only at k1 k2
        cases t' with
        | done o => exact absurd rfl (k2 o)
        | _ => exact ⟨n, h1, Or.inr ⟨c, h2, k1⟩⟩
end Apart
end Fs

open Fs.Apart in
/-- C176: if no system call fails, each program gets what the functions return if they are called one after another and
each is done at once: nobody sees, and nobody can tell from its results, that the calls are interrupted. -/
theorem C176_atonce {ι : Type} [DecidableEq ι] (fs : FS) (plan : ι → Plan) (base : ι → List Name) (top : ι → Nat)
    (hd : ∀ k, PlainDir fs (base k) (top k)) (ha : ∀ j k, j ≠ k → ApartDirs fs (top j) (top k))
    (hp : ∀ k out c, plan k out = some c → ∀ x ∈ c.paths, Within (base k) x) (hz : ∀ i, fs.dirSize i ≠ 0) (hn : NamesOnce fs)
    (sched : List (ι × Nat × Option Errno)) (k : ι) (hf : ∀ x ∈ sched, x.1 = k → x.2.2 = none) :
    let all := runApart plan (fs, fun k => (plan k).begin []) sched
    ∃ n, (all.2 k).out = ((plan k).calls (fs, []) n).2 ∧
      ((all.2 k).now = .idle → SameBelow all.1 (top k) ((plan k).calls (fs, []) n).1 (top k)) := by
  obtain ⟨h1, h2, h3⟩ := C176_apart fs plan base top hd ha hp hz hn sched k
  have key : ∀ (l : List (Nat × Option Errno)) (s : FS × Prog), (∀ x ∈ l, x.2 = none) → At (plan k) fs s →
      At (plan k) fs (runAlone (plan k) s l) := by
    intro l
    induction l with
    | nil => exact fun s _ h => h
    | cons x l ih =>
      intro s hl h
      refine ih _ (fun y hy => hl y (List.mem_cons_of_mem _ hy)) ?_
      show At (plan k) fs (Prog.step (plan k) x.1 x.2 s)
      rw [hl x List.mem_cons_self]
      exact at_step h x.1
  have hat := key ((sched.filter (·.1 = k)).map (·.2)) (fs, (plan k).begin []) (by
    intro x hx
    obtain ⟨y, hy, rfl⟩ := List.mem_map.1 hx
    obtain ⟨hy1, hy2⟩ := List.mem_filter.1 hy
    exact hf y hy1 (by simpa using hy2)) (at_begin (n := 0) rfl)
  obtain ⟨n, k1, k2⟩ := hat
  refine ⟨n, h1.trans k1, fun hi => ?_⟩
  rw [h3] at hi
  rcases k2 with ⟨-, -, k3⟩ | ⟨c, -, k3⟩
  · rw [← k3]; exact h2
  · rw [hi] at k3; cases k3

namespace Fs
/-- How many system calls are still to come at most, if each write writes something. -/
def Task.due : Task → Nat
  | .start (.write _ data) => data.length + 2
  | .start _ => 3
  | .writing _ off data => data.length - off + 1
  | .rmdir _ _ => 1
  | .onto _ _ _ => 2
  | .moving _ _ => 1
  | .opened _ => 2
  | .sized _ _ => 1
  | .listing _ => 1
  | _ => 0

namespace Apart
theorem due_pos {c : Call} {fs0 fs : FS} {t : Task} (m : Mid c fs0 t fs) : 0 < t.due := by
  cases m with
  | start => cases c <;> simp [Task.due]
  | _ => simp [Task.due]

theorem due_next {c : Call} {fs0 fs : FS} {t : Task} (m : Mid c fs0 t fs) {amount : Nat} (ha : 0 < amount) :
    (t.next amount none fs).1.due < t.due := by
  cases m with
  | start =>
    cases c with
    | createDir x => simp only [Task.next, settle_whole, Task.due]; omega
    | copy x y => simp only [Task.next, settle_whole, Task.due]; omega
    | removeDir x => simp only [Task.next, Task.unlinkFirst]; split <;> simp only [Task.due] <;> omega
    | removeFile x => simp only [Task.next, Task.unlinkFirst]; split <;> simp only [Task.due] <;> omega
    | write x data => simp only [Task.next]; split <;> simp only [Task.due] <;> omega
    | rename x y => simp only [Task.next]; split <;> (try split) <;> simp only [Task.due] <;> omega
    | read x => simp only [Task.next]; split <;> simp only [Task.due] <;> omega
    | readDir x => simp only [Task.next]; split <;> simp only [Task.due] <;> omega
  | listing h ho => simp only [Task.next]; split <;> simp only [Task.due] <;> omega
  | rmdir h hu => simp only [Task.next]; split <;> simp only [Task.due] <;> omega
  | onto h hl hj => simp only [Task.next]; split <;> (try split) <;> simp only [Task.due] <;> omega
  | moving h hr => simp only [Task.next, settle_whole, Task.due]; omega
  | opened h ho => simp only [Task.next, Task.due]; omega
  | sized h ho => simp only [Task.next]; split <;> simp only [Task.due] <;> omega
  | @writing x data i off fs1 h hc ho =>
    simp only [Task.next]
    split
    · simp only [Task.due]; omega
    · next hle =>
      simp only [Task.due, List.length_take, List.length_drop] at hle ⊢
      omega

/-- The call comes to its end. -/
theorem call_ends {plan : Plan} {c : Call} {fs0 : FS} {out : List Outcome} (w : Nat) :
    ∀ (t : Task) (fs : FS), Mid c fs0 t fs → t.due ≤ w → ∀ l : List (Nat × Option Errno), w ≤ l.length →
      (∀ x ∈ l, 0 < x.1 ∧ x.2 = none) →
      ∃ l1 l2, l = l1 ++ l2 ∧ l1.length ≤ w ∧
        runAlone plan (fs, ⟨t, out⟩) l1 = ((c.whole fs0).2, plan.begin (out ++ [(c.whole fs0).1])) := by
  induction w with
  | zero => intro t fs m hw; have := due_pos m; omega
  | succ w ih =>
    intro t fs m hw l hl hx
    cases l with
    | nil => simp at hl
    | cons x l =>
      obtain ⟨amount, fault⟩ := x
      obtain ⟨h1, h2⟩ := hx (amount, fault) List.mem_cons_self
      simp only at h1 h2
      subst h2
      rcases mid_next m amount with k1 | ⟨k1, k2⟩
      · refine ⟨[(amount, none)], l, rfl, by simp, ?_⟩
        show Prog.step plan amount none (fs, ⟨t, out⟩) = _
        unfold Prog.step
        simp only [k1]
      · have hd := due_next m h1
        match hn : t.next amount none fs with
        | (t', fs') =>
          rw [hn] at k1 k2 hd
          simp only at k1 k2 hd
          have hs : Prog.step plan amount none (fs, ⟨t, out⟩) = (fs', ⟨t', out⟩) := by
            unfold Prog.step
            simp only [hn]
          obtain ⟨l1, l2, e1, e2, e3⟩ := ih t' fs' k1 (by omega) l (by simp at hl; omega)
            fun y hy => hx y (List.mem_cons_of_mem _ hy)
          refine ⟨(amount, none) :: l1, l2, by rw [e1]; rfl, by simp; omega, ?_⟩
          show runAlone plan (Prog.step plan amount none (fs, ⟨t, out⟩)) l1 = _
          rw [hs]
          exact e3

theorem idle_stays {plan : Plan} {fs : FS} {out : List Outcome} (l : List (Nat × Option Errno)) :
    runAlone plan (fs, ⟨.idle, out⟩) l = (fs, ⟨.idle, out⟩) := by
  induction l with
  | nil => rfl
  | cons x l ih => exact ih

/-- The program comes to its end. -/
theorem prog_ends {plan : Plan} {fs0 : FS} (d : Nat) : ∀ (m : Nat), plan (plan.calls (fs0, []) (m + d)).2 = none →
    ∃ N, ∀ l : List (Nat × Option Errno), N ≤ l.length → (∀ x ∈ l, 0 < x.1 ∧ x.2 = none) →
      runAlone plan ((plan.calls (fs0, []) m).1, plan.begin (plan.calls (fs0, []) m).2) l =
        ((plan.calls (fs0, []) (m + d)).1, ⟨.idle, (plan.calls (fs0, []) (m + d)).2⟩) := by
  induction d with
  | zero =>
    intro m h
    refine ⟨0, fun l _ _ => ?_⟩
    simp only [Nat.add_zero] at h ⊢
    unfold Plan.begin
    rw [h]
    exact idle_stays l
  | succ d ih =>
    intro m h
    obtain ⟨N, hN⟩ := ih (m + 1) (by rw [Nat.add_assoc, Nat.add_comm 1 d]; exact h)
    rw [show m + 1 + d = m + (d + 1) by omega] at hN
    cases hc : plan (plan.calls (fs0, []) m).2 with
    | none =>
      have e : plan.calls (fs0, []) (m + 1) = plan.calls (fs0, []) m := by rw [Plan.calls, hc]
      rw [e] at hN
      exact ⟨N, hN⟩
    | some c =>
      have e : plan.calls (fs0, []) (m + 1) = ((c.whole (plan.calls (fs0, []) m).1).2,
          (plan.calls (fs0, []) m).2 ++ [(c.whole (plan.calls (fs0, []) m).1).1]) := by rw [Plan.calls, hc]
      refine ⟨(Task.start c).due + N, fun l hl hx => ?_⟩
      obtain ⟨l1, l2, e1, e2, e3⟩ := call_ends (plan := plan) _ (.start c) _ .start (Nat.le_refl _) l (by omega) hx
      subst e1
      have hb : plan.begin (plan.calls (fs0, []) m).2 = ⟨.start c, (plan.calls (fs0, []) m).2⟩ := by
        unfold Plan.begin; rw [hc]
      rw [hb]
      show List.foldl _ _ (l1 ++ l2) = _
      rw [List.foldl_append]
      show runAlone plan (runAlone plan _ l1) l2 = _
      rw [e3]
      rw [e] at hN
      exact hN l2 (by rw [List.length_append] at hl; omega) fun y hy => hx y (List.mem_append_right _ hy)
end Apart
end Fs

open Fs.Apart in
/-- C176: nobody can keep a program from finishing: if it makes `n` calls when it runs alone, there is a number of turns
after which it has finished, with the results of these calls, whatever the others have done meanwhile, provided that its
own system calls do not fail and each of its writes writes something. -/
theorem C176_finishes {ι : Type} [DecidableEq ι] (fs : FS) (plan : ι → Plan) (base : ι → List Name) (top : ι → Nat)
    (hd : ∀ k, PlainDir fs (base k) (top k)) (ha : ∀ j k, j ≠ k → ApartDirs fs (top j) (top k))
    (hp : ∀ k out c, plan k out = some c → ∀ x ∈ c.paths, Within (base k) x) (hz : ∀ i, fs.dirSize i ≠ 0) (hn : NamesOnce fs)
    (k : ι) (n : Nat) (hf : plan k ((plan k).calls (fs, []) n).2 = none) :
    ∃ N, ∀ sched : List (ι × Nat × Option Errno), (∀ x ∈ sched, x.1 = k → 0 < x.2.1 ∧ x.2.2 = none) →
      N ≤ (sched.filter (·.1 = k)).length →
      let all := runApart plan (fs, fun k => (plan k).begin []) sched
      (all.2 k).now = .idle ∧ (all.2 k).out = ((plan k).calls (fs, []) n).2 ∧
        SameBelow all.1 (top k) ((plan k).calls (fs, []) n).1 (top k) := by
  obtain ⟨N, hN⟩ := prog_ends (plan := plan k) (fs0 := fs) n 0 (by rw [Nat.zero_add]; exact hf)
  refine ⟨N, fun sched hs hl => ?_⟩
  obtain ⟨h1, h2, h3⟩ := C176_apart fs plan base top hd ha hp hz hn sched k
  have key := hN ((sched.filter (·.1 = k)).map (·.2)) (by rw [List.length_map]; exact hl) (by
    intro x hx
    obtain ⟨y, hy, rfl⟩ := List.mem_map.1 hx
    obtain ⟨hy1, hy2⟩ := List.mem_filter.1 hy
    exact hs y hy1 (by simpa using hy2))
  rw [Nat.zero_add] at key
  change runAlone (plan k) (fs, (plan k).begin []) _ = _ at key
  rw [key] at h1 h2 h3
  exact ⟨h3.2 rfl, h1, h2⟩

/-! Concrete case: a program in `/d` writes `n`, moves it onto `x` and reads `x`; a program in `/e` writes `n` and removes
it if that has worked, otherwise makes a directory. -/
def Fs.twoPlans : Bool → Plan
  | true => fun out => match out with
    | [] => some (.write ⟨true, [[100], [110]]⟩ [1, 2])
    | [_] => some (.rename ⟨true, [[100], [110]]⟩ ⟨true, [[100], [120]]⟩)
    | [_, _] => some (.read ⟨true, [[100], [120]]⟩)
    | [_, _, _] => some (.readDir ⟨true, [[100], [46]]⟩)
    | _ => none
  | false => fun out => match out with
    | [] => some (.write ⟨true, [[101], [110]]⟩ [3])
    | [r] => if r = .unit (Res.mkOk ()) then some (.removeFile ⟨true, [[101], [110]]⟩) else some (.createDir ⟨true, [[101], [109]]⟩)
    | _ => none
def Fs.twoBases (k : Bool) : List Name := if k then [[100]] else [[101]]
def Fs.twoTops (k : Bool) : Nat := if k then 1 else 4
/-- Both in turn; the first write of the one is cut after one byte, the write of the other fails. -/
def Fs.twoSched : List (Bool × Nat × Option Errno) :=
  [(true, 0, none), (false, 0, none), (true, 1, none), (false, 0, some .EIO), (true, 5, none), (false, 0, none),
   (true, 0, none), (true, 0, none), (true, 0, none), (false, 0, none), (true, 0, none), (true, 0, none), (true, 0, none),
   (true, 0, none)]

theorem Fs.two_hyps : (∀ k, PlainDir Fs.twoDirs (Fs.twoBases k) (Fs.twoTops k)) ∧
    (∀ j k, j ≠ k → ApartDirs Fs.twoDirs (Fs.twoTops j) (Fs.twoTops k)) ∧
    (∀ k out c, Fs.twoPlans k out = some c → ∀ x ∈ c.paths, Within (Fs.twoBases k) x) ∧ (∀ i, Fs.twoDirs.dirSize i ≠ 0) ∧
    NamesOnce Fs.twoDirs := by
  refine ⟨?_, ?_, ?_, ?_, runAll_once Fs.blank_once _⟩
  · rintro (_ | _)
    · exact Fs.twoDirs_e.1
    · exact ⟨Fs.twoDirs_hyps.1, Fs.twoDirs_hyps.2.1, Fs.twoDirs_hyps.2.2.1, Fs.twoDirs_hyps.2.2.2.1⟩
  · rintro (_ | _) (_ | _) h
    · exact absurd rfl h
    · exact Fs.Iso.apart_symm Fs.twoDirs_e.2
    · exact Fs.twoDirs_e.2
    · exact absurd rfl h
  · have w : ∀ b n : Nat, ∀ k, Fs.twoBases k = [[UInt8.ofNat b]] →
        Within (Fs.twoBases k) ⟨true, [[UInt8.ofNat b], [UInt8.ofNat n]]⟩ := by
      intro b n k hk
      refine ⟨[[UInt8.ofNat n]], by simp, ?_, by rw [hk]; rfl⟩
      intro h
      rw [List.mem_singleton] at h
      exact absurd (congrArg List.length h) (by simp [dotdot])
    rintro (_ | _) out c h x hx
    · simp only [Fs.twoPlans] at h
      repeat' split at h
      all_goals cases h
      all_goals simp only [Call.paths, List.mem_singleton] at hx
      all_goals subst hx
      · exact w 101 110 false rfl
      · exact w 101 110 false rfl
      · exact w 101 109 false rfl
    · simp only [Fs.twoPlans] at h
      repeat' split at h
      all_goals cases h
      all_goals simp only [Call.paths, List.mem_cons, List.not_mem_nil, or_false] at hx
      · subst hx; exact w 100 110 true rfl
      · rcases hx with rfl | rfl
        · exact w 100 110 true rfl
        · exact w 100 120 true rfl
      · subst hx; exact w 100 120 true rfl
      · subst hx; exact w 100 46 true rfl
  · intro i h
    have : Fs.twoDirs.dirSize = fun _ => 4096 := rfl
    rw [this] at h
    cases h

example : ((runApart Fs.twoPlans (Fs.twoDirs, fun k => (Fs.twoPlans k).begin []) Fs.twoSched).2 true).out.take 3 =
      [.unit (Res.mkOk ()), .unit (Res.mkOk ()), .data (Res.mkOk [1, 2])] ∧
    ((runApart Fs.twoPlans (Fs.twoDirs, fun k => (Fs.twoPlans k).begin []) Fs.twoSched).2 true).out.length = 4 ∧
    ((runApart Fs.twoPlans (Fs.twoDirs, fun k => (Fs.twoPlans k).begin []) Fs.twoSched).2 false).out =
      [.unit (Res.mkErr (some .EIO)), .unit (Res.mkOk ())] ∧
    (∀ x ∈ Fs.twoSched, x.1 = true → x.2.2 = none) ∧
    Fs.twoPlans true ((Fs.twoPlans true).calls (Fs.twoDirs, []) 4).2 = none := by
  refine ⟨by decide +kernel, by decide +kernel, by decide +kernel, by decide +kernel, by decide +kernel⟩
/- The last of those calls reads a directory of two entries. -/
example : (Task.next 0 none Fs.twoDirs (.listing 1)).1 =
    .done (.list (Res.mkOk [⟨[115], typeOf Fs.twoDirs 3⟩, ⟨[120], typeOf Fs.twoDirs 2⟩])) ∧
    (typeOf Fs.twoDirs 3).dir = true ∧ (typeOf Fs.twoDirs 2).dir = false := by
  have h : Fs.twoDirs.nodes[1]? = some (.dir 0 [([120], 2), ([115], 3)]) := by decide +kernel
  refine ⟨?_, by decide +kernel, by decide +kernel⟩
  simp only [Task.next, h]
  rw [Fs.Undo.sort_same (es := [([115], 3), ([120], 2)]) (by decide) (by decide) (by
    intro n
    simp only [List.lookup]
    by_cases h1 : n = [115]
    · subst h1; rfl
    · by_cases h2 : n = [120]
      · subst h2; rfl
      · rw [beq_false_of_ne h1, beq_false_of_ne h2]), List.mergeSort_of_pairwise (by decide)]
  rfl
/- In one directory they would notice each other: one moves `/d/n` away before the other has removed it. -/
example :
    let plan : Bool → Plan := fun k out => match k, out with
      | true, [] => some (.rename ⟨true, [[100], [120]]⟩ ⟨true, [[100], [110]]⟩)
      | false, [] => some (.removeFile ⟨true, [[100], [120]]⟩)
      | _, _ => none
    ((runApart plan (Fs.twoDirs, fun k => (plan k).begin [])
      [(true, 0, none), (true, 0, none), (false, 0, none), (false, 0, none)]).2 false).out =
        [.unit (Res.mkErr (some .ENOENT))] ∧
    (runAlone (plan false) (Fs.twoDirs, (plan false).begin []) [(0, none), (0, none)]).2.out = [.unit (Res.mkOk ())] := by
  decide +kernel
end Gost
