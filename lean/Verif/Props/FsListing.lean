import Verif.Props.FsApart
/-
ReadDir and where a directory is (the part of C174 about ReadDir).
-/
namespace Gost
open Os Fs Spec

namespace Spec
/-- Two results of ReadDir that differ in nothing but the paths of the items. -/
inductive SameListing : Go (Res Errno (Vec Fs.DirEntry)) → Go (Res Errno (Vec Fs.DirEntry)) → Prop
  | panics (e : Panic) : SameListing (.error e) (.error e)
  | fails (e : Option Errno) : SameListing (.ok (Res.mkErr e)) (.ok (Res.mkErr e))
  | lists {v w : Vec Fs.DirEntry}
      (h : v.data.map (fun x => (x.FileName, x.FileType)) = w.data.map fun x => (x.FileName, x.FileType)) :
      SameListing (.ok (Res.mkOk v)) (.ok (Res.mkOk w))
end Spec

namespace Fs.Iso
theorem list_both {fs gs : FS} {base base' q : List Name} {a b : Nat} (p : PlainDir fs base a) (p' : PlainDir gs base' b)
    (hs : SameBelow fs a gs b) (o : NamesOnce fs) (o' : NamesOnce gs) (hq : dotdot ∉ q) (hf : Fits fs base gs base' q)
    (f : Option Errno) : Os.readDir f fs ⟨true, base ++ q⟩ = Os.readDir f gs ⟨true, base' ++ q⟩ := by
  have s := iso_of_same p hs
  have hR : via fs a gs b a b := ⟨[], rfl, rfl⟩
  unfold Os.readDir
  cases f with
  | some e => rfl
  | none =>
    simp only
    have hw := resolve_both p p' s hR (f := true) hq hf
    generalize resolve fs true ⟨true, base ++ q⟩ = x at hw
    generalize resolve gs true ⟨true, base' ++ q⟩ = y at hw
    cases hw with
    | fail e => rfl
    | absent n h => rfl
    | @found i j h =>
      have hk := s.node i j h
      simp only
      generalize hx : fs.nodes[i]? = u at hk
      generalize hy : gs.nodes[j]? = v at hk
      cases hk with
      | file c => rfl
      | dir he =>
        simp only
        rw [Apart.list_iso s o o' hx hy he]

theorem listing_both {fs gs : FS} {base base' q : List Name} {a b : Nat} (p : PlainDir fs base a) (p' : PlainDir gs base' b)
    (hs : SameBelow fs a gs b) (o : NamesOnce fs) (o' : NamesOnce gs) (hq : dotdot ∉ q) (hf : Fits fs base gs base' q)
    (g : Growth) (f : Option Errno) :
    SameListing (Fs.readDir g f fs ⟨true, base ++ q⟩) (Fs.readDir g f gs ⟨true, base' ++ q⟩) := by
  unfold Fs.readDir
  rw [list_both p p' hs o o' hq hf f]
  match Os.readDir f gs ⟨true, base' ++ q⟩ with
  | .error e => exact .fails _
  | .ok l =>
    simp only
    cases hv : Vec.withLen (α := Fs.DirEntry) l.length with
    | error e => exact .panics e
    | ok v =>
      refine .lists ?_
      rw [Fs.pushes_data g (fun e => ⟨e.Name, join ⟨true, base ++ q⟩ e.Name, entryType e⟩),
        Fs.pushes_data g (fun e => ⟨e.Name, join ⟨true, base' ++ q⟩ e.Name, entryType e⟩)]
      simp only [List.map_append, List.map_map]
      rfl

theorem plain_runAll {fs : FS} {base : List Name} {a : Nat} (p : PlainDir fs base a) (ops : List Op)
    (h : ∀ op ∈ ops, ∀ x ∈ op.paths, x.names ≠ [] ∧ dotdot ∉ x.names) :
    PlainDir (runAll fs (ops.map (·.under base))) base a := by
  induction ops generalizing fs with
  | nil => exact p
  | cons op ops ih =>
    exact ih (plain_run p (op.under base) (under_below op (h op List.mem_cons_self)))
      fun o ho => h o (List.mem_cons_of_mem _ ho)

theorem runAll_limit (fs : FS) (ops : List Op) : (runAll fs ops).limit = fs.limit := by
  induction ops generalizing fs with
  | nil => rfl
  | cons op ops ih => exact (ih _).trans (Op.run_dir op).2

theorem plain_both {fs : FS} {base base2 : List Name} {a a2 : Nat} (p : PlainDir fs base a) (p2 : PlainDir fs base2 a2)
    (ha : ApartDirs fs a a2) (ops : List (Bool × Op)) (h : ∀ o ∈ ops, ∀ x ∈ o.2.paths, x.names ≠ [] ∧ dotdot ∉ x.names) :
    PlainDir (runAll fs (both base base2 ops)) base a := by
  induction ops generalizing fs with
  | nil => exact p
  | cons o ops ih =>
    obtain ⟨m, op⟩ := o
    have ho : ∀ x ∈ op.paths, x.names ≠ [] ∧ dotdot ∉ x.names := h (m, op) List.mem_cons_self
    have hrest : ∀ o ∈ ops, ∀ x ∈ o.2.paths, x.names ≠ [] ∧ dotdot ∉ x.names := fun o h' => h o (List.mem_cons_of_mem _ h')
    cases m with
    | true =>
      obtain ⟨o1, o2, -, -⟩ := other_run p p2 ha (op.under base) (under_below op ho)
      exact ih (plain_run p (op.under base) (under_below op ho)) o1 o2 hrest
    | false =>
      obtain ⟨o1, o2, -, -⟩ := other_run p2 p (apart_symm ha) (op.under base2) (under_below op ho)
      exact ih o1 (plain_run p2 (op.under base2) (under_below op ho)) (apart_symm o2) hrest
end Fs.Iso

open Fs.Iso in
/-- C174, ReadDir.  Let there be the same below `/base` of one file system and below `/base'` of another, or of the same one,
without symbolic links.  After the same calls, with their paths below the one and the other, every ReadDir returns the
same below both, errors included, but for the paths of the items. -/
theorem C174_listing {fs gs : FS} {base base' : List Name} {a b : Nat} (p : PlainDir fs base a) (p' : PlainDir gs base' b)
    (hs : SameBelow fs a gs b) (o : NamesOnce fs) (o' : NamesOnce gs) (ops : List Op)
    (h : ∀ op ∈ ops, ∀ x ∈ op.paths, x.names ≠ [] ∧ dotdot ∉ x.names ∧ Fits fs base gs base' x.names)
    (q : List Name) (hq : dotdot ∉ q) (hf : Fits fs base gs base' q) (g : Growth) (f : Option Errno) :
    SameListing (Fs.readDir g f (runAll fs (ops.map (·.under base))) ⟨true, base ++ q⟩)
      (Fs.readDir g f (runAll gs (ops.map (·.under base'))) ⟨true, base' ++ q⟩) := by
  have h' : ∀ op ∈ ops, ∀ x ∈ op.paths, x.names ≠ [] ∧ dotdot ∉ x.names :=
    fun op ho x hx => ⟨(h op ho x hx).1, (h op ho x hx).2.1⟩
  refine listing_both (plain_runAll p ops h') (plain_runAll p' ops h') (C174_location p p' hs ops h).2.1
    (runAll_once o _) (runAll_once o' _) hq ?_ g f
  unfold Fits
  rw [runAll_limit, runAll_limit]
  exact hf

open Fs.Iso in
/-- C174, ReadDir and another program.  Two programs work below two directories that have nothing in common, and their calls
are mixed in any way.  Then every ReadDir below the first directory returns exactly what it returns if the first
program runs alone. -/
theorem C174_listing_undisturbed {fs : FS} {base base2 : List Name} {a a2 : Nat} (p : PlainDir fs base a)
    (p2 : PlainDir fs base2 a2) (ha : ApartDirs fs a a2) (o : NamesOnce fs) (ops : List (Bool × Op))
    (h : ∀ o ∈ ops, ∀ x ∈ o.2.paths, x.names ≠ [] ∧ dotdot ∉ x.names) (q : List Name) (hq : dotdot ∉ q)
    (g : Growth) (f : Option Errno) :
    Fs.readDir g f (runAll fs (both base base2 ops)) ⟨true, base ++ q⟩ =
      Fs.readDir g f (runAll fs (own base ops)) ⟨true, base ++ q⟩ := by
  have hown : PlainDir (runAll fs (own base ops)) base a := by
    have := plain_runAll p ((ops.filter (·.1)).map (·.2)) fun op ho x hx => by
      obtain ⟨z, hz, rfl⟩ := List.mem_map.1 ho
      exact h z (List.mem_filter.1 hz).1 x hx
    rw [List.map_map] at this
    exact this
  unfold Fs.readDir
  rw [list_both (plain_both p p2 ha ops h) hown (C174_undisturbed p p2 ha ops h).2 (runAll_once o _) (runAll_once o _) hq
    (Or.inl ⟨by rw [runAll_limit, runAll_limit], rfl⟩) f]

/- `/d` moved to `/e/f` meets the hypotheses of `C174_listing`: ReadDir("/d/s") before and ReadDir("/e/f/s") afterwards return
the same, also after calls below both. -/
example (g : Growth) (ops : List Op) (h : ∀ op ∈ ops, ∀ x ∈ op.paths, x.names ≠ [] ∧ dotdot ∉ x.names ∧
    Fits Fs.twoDirs [[100]] (Fs.rename none Fs.twoDirs ⟨true, [] ++ [[100]]⟩ ⟨true, [[101]] ++ [[102]]⟩).2 [[101], [102]] x.names) :
    SameListing (Fs.readDir g none (runAll Fs.twoDirs (ops.map (·.under [[100]]))) ⟨true, [[100]] ++ [[115]]⟩)
      (Fs.readDir g none (runAll (Fs.rename none Fs.twoDirs ⟨true, [] ++ [[100]]⟩ ⟨true, [[101]] ++ [[102]]⟩).2
        (ops.map (·.under [[101], [102]]))) ⟨true, [[101], [102]] ++ [[115]]⟩) := by
  have p : PlainDir Fs.twoDirs ([] ++ [[100]]) 1 :=
    ⟨Fs.twoDirs_hyps.1, Fs.twoDirs_hyps.2.1, Fs.twoDirs_hyps.2.2.1, Fs.twoDirs_hyps.2.2.2.1⟩
  obtain ⟨h1, h2⟩ := C174_moved (f := none) (pd' := [[101]]) (n' := [102]) (d' := 4) p (by decide +kernel) (by decide +kernel)
    (Fs.twoDirs_e.1.dir) (by decide +kernel)
  exact C174_listing p h1 h2 (runAll_once Fs.blank_once _)
    (Op.run_once (runAll_once Fs.blank_once _) (.rename none ⟨true, [] ++ [[100]]⟩ ⟨true, [[101]] ++ [[102]]⟩)) ops h [[115]]
    (by decide) (Or.inr (by decide +kernel)) g none
/- Two programs at once, in `/d` and in `/e`. -/
example (g : Growth) : Fs.readDir g none (runAll Fs.twoDirs (both [[100]] [[101]]
      [(true, .createDir none ⟨true, [[116]]⟩), (false, .createDir none ⟨true, [[117]]⟩)])) ⟨true, [[100]] ++ [[46]]⟩ =
    Fs.readDir g none (runAll Fs.twoDirs [.createDir none ⟨true, [[100], [116]]⟩]) ⟨true, [[100]] ++ [[46]]⟩ :=
  C174_listing_undisturbed (Fs.two_hyps.1 true) (Fs.two_hyps.1 false) (Fs.two_hyps.2.1 true false (by decide))
    Fs.two_hyps.2.2.2.2 _ (by
      intro o ho x hx
      simp only [List.mem_cons, List.not_mem_nil, or_false] at ho
      rcases ho with rfl | rfl <;>
        (simp only [Op.paths, List.mem_cons, List.not_mem_nil, or_false] at hx; rw [hx]; exact ⟨by decide, by decide⟩))
    [[46]] (by decide) g none
end Gost
