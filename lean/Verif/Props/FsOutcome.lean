import Verif.Props.FsTree
/-
Property C144: the file functions succeed exactly when they can.
-/
namespace Gost
open Os Fs Spec

namespace Spec
/-- A path without `.`, `..` and symbolic links on the way: the directory of its last component, and that name. -/
structure Plain (fs : FS) (pd : List Name) (n : Name) (d : Nat) : Prop where
  dir : reach fs 0 pd = some d
  isDir : IsDir fs d
  name : n ≠ dot ∧ n ≠ dotdot
  short : pd.length ≤ fs.limit

/-- What an inode is. -/
def IsFile (fs : FS) (i : Nat) : Prop := ∃ c, fs.nodes[i]? = some (.file c)
def IsLink (fs : FS) (i : Nat) : Prop := ∃ t, fs.nodes[i]? = some (.link t)
/-- The way of a path ends early: at a name that is not there, or at a file. -/
def Lost (fs : FS) (pd : List Name) : Prop :=
  (∃ p m r x, pd = p ++ m :: r ∧ m ≠ dot ∧ m ≠ dotdot ∧ reach fs 0 p = some x ∧ IsDir fs x ∧ inode fs x m = none) ∨
  ∃ p r x, pd = p ++ r ∧ reach fs 0 p = some x ∧ IsFile fs x
/-- A directory without entries. -/
def IsEmptyDir (fs : FS) (i : Nat) : Prop := ∃ up, fs.nodes[i]? = some (.dir up [])
/-- The call returned Ok. -/
def Succeeds {α : Type} (r : Res Errno α) : Prop := ∃ v, r = Res.mkOk v
/-- The call returned an error. -/
def Refused {α : Type} (r : Res Errno α) : Prop := ∃ e, r = Res.mkErr (some e)
end Spec

namespace Fs
theorem refused_not {α : Type} {r : Res Errno α} (h : Refused r) : ¬ Succeeds r := by
  obtain ⟨e, rfl⟩ := h
  rintro ⟨v, hv⟩
  exact mkErr_ne_mkOk hv

theorem Plain.parent {fs : FS} (t : Tree fs) {pd : List Name} {n : Name} {d : Nat} (h : Plain fs pd n d) :
    ∃ up es, Os.parent fs ⟨true, pd ++ [n]⟩ = .ok (d, up, es, n) ∧ fs.nodes[d]? = some (.dir up es) := by
  obtain ⟨up, es, hd⟩ := h.isDir
  refine ⟨up, es, ?_, hd⟩
  unfold Os.parent
  simp only [List.getLast?_concat, List.dropLast_concat, if_true]
  rw [if_neg (by rintro (e | e); exact h.name.1 e; exact h.name.2 e),
    walk_reach t h.dir (fun _ => dir_nolink h.isDir), if_pos h.short]
  simp only [hd]

theorem Plain.resolve {fs : FS} (t : Tree fs) {pd : List Name} {n : Name} {d : Nat} (h : Plain fs pd n d) (f : Bool)
    (hf : f = true → ∀ i, inode fs d n = some i → ¬ IsLink fs i) :
    Os.resolve fs f ⟨true, pd ++ [n]⟩ = match inode fs d n with | some i => .found i | none => .absent d n := by
  obtain ⟨up, es, hp, hd⟩ := Plain.parent t h
  obtain ⟨-, h1, h2, hn, hw⟩ := parent_ok hp
  obtain ⟨k, hk⟩ := resolve_parent (f := f) hn hw
  rw [hk]
  rw [entry_of hd] at hf ⊢
  match hl : es.lookup n with
  | none => exact walk_last_absent hd h1 h2 hl
  | some i => exact walk_last hd h1 h2 hl (fun e p hc => hf e i hl ⟨p, hc⟩)

theorem walk_lost {fs : FS} (t : Tree fs) {s x : Nat} {p r : List Name} {m : Name} (f : Bool) (h : reach fs s p = some x)
    (hm : IsDir fs x → m ≠ dot ∧ m ≠ dotdot)
    (hx : (IsDir fs x ∧ inode fs x m = none) ∨ ∃ c, fs.nodes[x]? = some (.file c))
    (fuel : Nat) : (∃ e, walk fs f fuel s (p ++ m :: r) = .fail e) ∨
      (r = [] ∧ walk fs f fuel s (p ++ m :: r) = .absent x m) := by
  induction p generalizing s fuel with
  | nil =>
    cases h
    cases fuel with
    | zero => exact .inl ⟨_, rfl⟩
    | succ fuel =>
      rw [List.nil_append, walk]
      rcases hx with ⟨⟨up, es, hd⟩, hn⟩ | ⟨c, hc⟩
      · have hm := hm ⟨up, es, hd⟩
        rw [entry_of hd] at hn
        rw [hd]
        simp only [if_neg hm.1, if_neg hm.2, hn]
        by_cases hr : r = []
        · rw [if_pos hr]; exact .inr ⟨hr, rfl⟩
        · rw [if_neg hr]; exact .inl ⟨_, rfl⟩
      · rw [hc]; exact .inl ⟨_, rfl⟩
  | cons n p ih =>
    cases fuel with
    | zero => exact .inl ⟨_, rfl⟩
    | succ fuel =>
      rw [reach] at h
      cases hy : inode fs s n with
      | none => rw [hy] at h; cases h
      | some y =>
        rw [hy] at h
        simp only at h
        obtain ⟨up, es, hs⟩ := entry_dir hy
        have hn : n ≠ dot ∧ n ≠ dotdot :=
          ⟨fun e => by rw [e, (t.dots s).1] at hy; exact (by cases hy), fun e => by rw [e, (t.dots s).2] at hy; exact (by cases hy)⟩
        rw [entry_of hs] at hy
        rw [List.cons_append, walk, hs]
        simp only [if_neg hn.1, if_neg hn.2, hy]
        match hz : fs.nodes[y]? with
        | some (.file c) => exact ih h fuel
        | some (.dir u e) => exact ih h fuel
        | none => exact ih h fuel
        | some (.link q) =>
          exfalso
          cases p with
          | nil =>
            cases h
            rcases hx with ⟨⟨_, _, hd⟩, -⟩ | ⟨c, hc⟩
            · rw [hd] at hz; cases hz
            · rw [hc] at hz; cases hz
          | cons z p => rw [reach, inode, hz] at h; cases h

theorem lost_resolve {fs : FS} (t : Tree fs) {pd : List Name} (n : Name) (h : Lost fs pd) (f : Bool) :
    ∃ e, Os.resolve fs f ⟨true, pd ++ [n]⟩ = .fail e := by
  unfold Os.resolve
  simp only [Bool.true_eq_false, false_and, if_false, if_true]
  rcases h with ⟨p, m, r, x, rfl, h1, h2, h3, h4⟩ | ⟨p, r, x, rfl, h3, c, hc⟩
  · simp only [List.append_assoc, List.cons_append]
    rcases walk_lost (r := r ++ [n]) t f h3 (fun _ => ⟨h1, h2⟩) (.inl h4) (fs.limit + 1) with h | ⟨h, -⟩
    · exact h
    · simp at h
  · have hD : ¬ IsDir fs x := by rintro ⟨u, e, hd⟩; rw [hc] at hd; cases hd
    cases r with
    | nil =>
      simp only [List.append_nil]
      rcases walk_lost (r := []) (m := n) t f h3 (fun h => absurd h hD) (.inr ⟨c, hc⟩) (fs.limit + 1) with h | ⟨-, h⟩
      · exact h
      · obtain ⟨⟨u, e, hd, -⟩, -⟩ := walk_absent h
        exact absurd ⟨u, e, hd⟩ hD
    | cons m r =>
      simp only [List.append_assoc, List.cons_append]
      rcases walk_lost (r := r ++ [n]) t f h3 (fun h => absurd h hD) (.inr ⟨c, hc⟩) (fs.limit + 1) with h | ⟨h, -⟩
      · exact h
      · simp at h

theorem lost_parent {fs : FS} (t : Tree fs) {pd : List Name} (n : Name) (h : Lost fs pd) :
    ∃ e, Os.parent fs ⟨true, pd ++ [n]⟩ = .error e := by
  unfold Os.parent
  simp only [List.getLast?_concat, List.dropLast_concat, if_true]
  by_cases hn : n = dot ∨ n = dotdot
  · rw [if_pos hn]; exact ⟨_, rfl⟩
  · rw [if_neg hn]
    rcases h with ⟨p, m, r, x, rfl, h1, h2, h3, h4⟩ | ⟨p, r, x, rfl, h3, c, hc⟩
    · rcases walk_lost t true h3 (fun _ => ⟨h1, h2⟩) (.inl h4) fs.limit with ⟨e, he⟩ | ⟨-, he⟩
      · rw [he]; exact ⟨_, rfl⟩
      · rw [he]; exact ⟨_, rfl⟩
    · have hD : ¬ IsDir fs x := by rintro ⟨u, e, hd⟩; rw [hc] at hd; cases hd
      cases r with
      | nil =>
        rw [List.append_nil, walk_reach t h3 (fun _ p hp => by rw [hc] at hp; cases hp)]
        by_cases hs : p.length ≤ fs.limit
        · rw [if_pos hs]; simp only [hc]; exact ⟨_, rfl⟩
        · rw [if_neg hs]; exact ⟨_, rfl⟩
      | cons m r =>
        rcases walk_lost t true h3 (fun h => absurd h hD) (.inr ⟨c, hc⟩) fs.limit with ⟨e, he⟩ | ⟨-, he⟩
        · rw [he]; exact ⟨_, rfl⟩
        · rw [he]; exact ⟨_, rfl⟩

theorem isAbove_prefix {fs : FS} (t : Tree fs) {i d fuel : Nat} {q : List Name} (h : isAbove fs i fuel d = true)
    (hq : reach fs 0 q = some d) (hd : IsDir fs d) : ∃ p, p <+: q ∧ reach fs 0 p = some i := by
  have same : ∀ {d q}, reach fs 0 q = some d → (i == d) = true → ∃ p, p <+: q ∧ reach fs 0 p = some i := by
    intro d q hq h
    rw [beq_iff_eq] at h
    exact ⟨q, List.prefix_rfl, by rw [hq, h]⟩
  induction fuel generalizing d q with
  | zero => exact same hq h
  | succ fuel ih =>
    rw [isAbove, Bool.or_eq_true] at h
    rcases h with h | h
    · exact same hq h
    rcases snoc_cases q with rfl | ⟨p, n, rfl⟩
    · cases hq
      obtain ⟨es, h0⟩ := t.top
      rw [h0] at h
      exact ih h rfl hd
    · obtain ⟨x, h1, h2⟩ := reach_snoc.1 hq
      obtain ⟨es, hu⟩ := t.up x n d h2 hd
      rw [hu] at h
      obtain ⟨p', hp, hr⟩ := ih h h1 (entry_dir h2)
      exact ⟨p', hp.trans (List.prefix_append ..), hr⟩

theorem node_cases {fs : FS} (t : Tree fs) {d i : Nat} {n : Name} (h : inode fs d n = some i) :
    IsFile fs i ∨ IsDir fs i ∨ IsLink fs i := by
  have := t.range d n i h
  match hi : fs.nodes[i]? with
  | some (.file c) => exact .inl ⟨c, hi⟩
  | some (.dir u e) => exact .inr (.inl ⟨u, e, hi⟩)
  | some (.link p) => exact .inr (.inr ⟨p, hi⟩)
  | none => rw [List.getElem?_eq_none_iff] at hi; omega
end Fs

/-- **C144**, Read and ReadToString.  The full property: without a failure of the system they succeed exactly if the
path leads to a file.  Proved for paths without symbolic links; they also succeed, and give nothing, for a directory
of which the system says that its size is 0. -/
theorem C144_read_partial (fs : FS) (pd : List Name) (n : Name) (d : Nat) (t : Tree fs) (h : Plain fs pd n d)
    (hl : ∀ i, inode fs d n = some i → ¬ IsLink fs i) :
    (Succeeds (Fs.read none none fs ⟨true, pd ++ [n]⟩) ↔
      ∃ i, inode fs d n = some i ∧ (IsFile fs i ∨ (IsDir fs i ∧ fs.dirSize i = 0))) ∧
    (Succeeds (Fs.readToString none none fs ⟨true, pd ++ [n]⟩) ↔
      ∃ i, inode fs d n = some i ∧ (IsFile fs i ∨ (IsDir fs i ∧ fs.dirSize i = 0))) ∧
    (¬ Succeeds (Fs.read none none fs ⟨true, pd ++ [n]⟩) → Refused (Fs.read none none fs ⟨true, pd ++ [n]⟩)) ∧
    (¬ Succeeds (Fs.readToString none none fs ⟨true, pd ++ [n]⟩) →
      Refused (Fs.readToString none none fs ⟨true, pd ++ [n]⟩)) := by
  have e : Fs.readToString none none fs ⟨true, pd ++ [n]⟩ = Fs.read none none fs ⟨true, pd ++ [n]⟩ := rfl
  rw [e]
  suffices hs : (Succeeds (Fs.read none none fs ⟨true, pd ++ [n]⟩) ∧
      ∃ i, inode fs d n = some i ∧ (IsFile fs i ∨ (IsDir fs i ∧ fs.dirSize i = 0))) ∨
      (Refused (Fs.read none none fs ⟨true, pd ++ [n]⟩) ∧
      ¬ ∃ i, inode fs d n = some i ∧ (IsFile fs i ∨ (IsDir fs i ∧ fs.dirSize i = 0))) by
    rcases hs with ⟨h1, h2⟩ | ⟨h1, h2⟩
    · exact ⟨⟨fun _ => h2, fun _ => h1⟩, ⟨fun _ => h2, fun _ => h1⟩, fun h => absurd h1 h, fun h => absurd h1 h⟩
    · exact ⟨⟨fun h => absurd h (refused_not h1), fun h => absurd h h2⟩,
        ⟨fun h => absurd h (refused_not h1), fun h => absurd h h2⟩, fun _ => h1, fun _ => h1⟩
  have hr := Plain.resolve t h true (fun _ => hl)
  unfold Fs.read open_
  rw [hr]
  cases hi : inode fs d n with
  | none => exact .inr ⟨⟨_, rfl⟩, by rintro ⟨i, hc, -⟩; cases hc⟩
  | some i =>
    simp only
    rcases node_cases t hi with ⟨c, hc⟩ | ⟨u, e, hc⟩ | hc
    · refine .inl ⟨?_, i, rfl, .inl ⟨c, hc⟩⟩
      unfold fileRead size
      rw [hc]
      simp only
      by_cases h0 : c.length = 0
      · rw [if_pos h0]; exact ⟨_, rfl⟩
      · rw [if_neg h0, if_neg]
        · exact ⟨_, rfl⟩
        · intro hn
          have := congrArg List.length hn
          simp [maxRW] at this
          simp [this] at h0
    · unfold fileRead size
      rw [hc]
      simp only
      by_cases h0 : fs.dirSize i = 0
      · rw [if_pos h0]; exact .inl ⟨⟨_, rfl⟩, i, rfl, .inr ⟨⟨u, e, hc⟩, h0⟩⟩
      · rw [if_neg h0]
        refine .inr ⟨⟨_, rfl⟩, ?_⟩
        rintro ⟨j, hj, ⟨c', hc'⟩ | ⟨-, hz⟩⟩
        · cases hj; rw [hc] at hc'; cases hc'
        · cases hj; exact h0 hz
    · exact absurd hc (hl i hi)

/-- **C144** fails: a directory of size 0 can be read. -/
theorem C144_readDirectory_fails (fs : FS) (pd : List Name) (n : Name) (d i : Nat) (t : Tree fs) (h : Plain fs pd n d)
    (hi : inode fs d n = some i) (hD : IsDir fs i) (h0 : fs.dirSize i = 0) :
    Fs.read none none fs ⟨true, pd ++ [n]⟩ = Res.mkOk [] ∧ Fs.readToString none none fs ⟨true, pd ++ [n]⟩ = Res.mkOk [] := by
  have hl : ∀ j, inode fs d n = some j → ¬ IsLink fs j := by
    rintro j hj ⟨p, hp⟩
    rw [hi] at hj
    cases hj
    exact dir_nolink hD p hp
  have hr := Plain.resolve t h true (fun _ => hl)
  obtain ⟨u, e, hd⟩ := hD
  have e : Fs.readToString none none fs ⟨true, pd ++ [n]⟩ = Fs.read none none fs ⟨true, pd ++ [n]⟩ := rfl
  rw [e]
  refine ⟨?_, ?_⟩ <;>
  · unfold Fs.read open_
    rw [hr, hi]
    simp only [fileRead, size, hd, h0, if_true]

/-- **C144**, Write: without a failure of the system it succeeds exactly if the name is free or that of a file. -/
theorem C144_write (fs : FS) (pd : List Name) (n : Name) (d : Nat) (data : List UInt8) (t : Tree fs)
    (h : Plain fs pd n d) (hl : ∀ i, inode fs d n = some i → ¬ IsLink fs i) :
    (Succeeds (Fs.write none none fs ⟨true, pd ++ [n]⟩ data).1 ↔ ∀ i, inode fs d n = some i → IsFile fs i) ∧
    (¬ Succeeds (Fs.write none none fs ⟨true, pd ++ [n]⟩ data).1 →
      Refused (Fs.write none none fs ⟨true, pd ++ [n]⟩ data).1 ∧ (Fs.write none none fs ⟨true, pd ++ [n]⟩ data).2 = fs) := by
  have hr := Plain.resolve t h true (fun _ => hl)
  obtain ⟨up, es, -, hd⟩ := Plain.parent t h
  unfold Fs.write create
  rw [hr]
  cases hi : inode fs d n with
  | none =>
    simp only [hd, fileWrite]
    exact ⟨⟨fun _ i hc => (by cases hc), fun _ => ⟨_, rfl⟩⟩, fun h => absurd ⟨_, rfl⟩ h⟩
  | some i =>
    simp only
    rcases node_cases t hi with ⟨c, hc⟩ | ⟨u, e, hc⟩ | hc
    · simp only [hc, fileWrite]
      exact ⟨⟨fun _ i hj => (by cases hj; exact ⟨c, hc⟩), fun _ => ⟨_, rfl⟩⟩, fun h => absurd ⟨_, rfl⟩ h⟩
    · simp only [hc]
      refine ⟨⟨fun h => absurd h (refused_not ⟨_, rfl⟩), fun h => ?_⟩, fun _ => ⟨⟨_, rfl⟩, by trivial⟩⟩
      obtain ⟨c, hc'⟩ := h i rfl
      rw [hc] at hc'; cases hc'
    · exact absurd hc (hl i hi)

/-- **C144**, CreateDir: without a failure of the system it succeeds exactly if the name is free. -/
theorem C144_createDir (fs : FS) (pd : List Name) (n : Name) (d : Nat) (t : Tree fs) (h : Plain fs pd n d) :
    (Succeeds (Fs.createDir none fs ⟨true, pd ++ [n]⟩).1 ↔ inode fs d n = none) ∧
    (¬ Succeeds (Fs.createDir none fs ⟨true, pd ++ [n]⟩).1 →
      Refused (Fs.createDir none fs ⟨true, pd ++ [n]⟩).1 ∧ (Fs.createDir none fs ⟨true, pd ++ [n]⟩).2 = fs) := by
  obtain ⟨up, es, hp, hd⟩ := Plain.parent t h
  unfold Fs.createDir mkdir
  simp only [hp, entry_of hd]
  cases hi : es.lookup n with
  | none => exact ⟨⟨fun _ => rfl, fun _ => ⟨_, rfl⟩⟩, fun h => absurd ⟨_, rfl⟩ h⟩
  | some i => exact ⟨⟨fun h => absurd h (refused_not ⟨_, rfl⟩), fun h => (by cases h)⟩, fun _ => ⟨⟨_, rfl⟩, by trivial⟩⟩

/-- **C144**, RemoveFile and RemoveDir: without a failure of the system each of the two succeeds exactly if there is
something under the name, but not a directory with entries.  (That RemoveFile removes directories and RemoveDir files
is C105.) -/
theorem C144_remove (fs : FS) (pd : List Name) (n : Name) (d : Nat) (t : Tree fs) (h : Plain fs pd n d) :
    (Succeeds (Fs.removeFile none fs ⟨true, pd ++ [n]⟩).1 ↔
      ∃ i, inode fs d n = some i ∧ (IsDir fs i → IsEmptyDir fs i)) ∧
    (¬ Succeeds (Fs.removeFile none fs ⟨true, pd ++ [n]⟩).1 →
      Refused (Fs.removeFile none fs ⟨true, pd ++ [n]⟩).1 ∧ (Fs.removeFile none fs ⟨true, pd ++ [n]⟩).2 = fs) ∧
    Fs.removeDir none fs ⟨true, pd ++ [n]⟩ = Fs.removeFile none fs ⟨true, pd ++ [n]⟩ := by
  suffices hs : (Succeeds (Fs.removeFile none fs ⟨true, pd ++ [n]⟩).1 ∧
      ∃ i, inode fs d n = some i ∧ (IsDir fs i → IsEmptyDir fs i)) ∨
      ((Refused (Fs.removeFile none fs ⟨true, pd ++ [n]⟩).1 ∧ (Fs.removeFile none fs ⟨true, pd ++ [n]⟩).2 = fs) ∧
      ¬ ∃ i, inode fs d n = some i ∧ (IsDir fs i → IsEmptyDir fs i)) by
    rcases hs with ⟨h1, h2⟩ | ⟨h1, h2⟩
    · exact ⟨⟨fun _ => h2, fun _ => h1⟩, fun h => absurd h1 h, rfl⟩
    · exact ⟨⟨fun h => absurd h (refused_not h1.1), fun h => absurd h h2⟩, fun _ => h1, rfl⟩
  obtain ⟨up, es, hp, hd⟩ := Plain.parent t h
  unfold Fs.removeFile remove unlink rmdir
  simp only [hp, entry_of hd]
  cases hi : es.lookup n with
  | none => exact .inr ⟨⟨⟨_, rfl⟩, by trivial⟩, by rintro ⟨i, hc, -⟩; cases hc⟩
  | some i =>
    have hi' : inode fs d n = some i := by rw [entry_of hd, hi]
    rcases node_cases t hi' with ⟨c, hc⟩ | ⟨u, e, hc⟩ | ⟨p, hc⟩
    · simp only [hc]
      refine .inl ⟨⟨_, rfl⟩, i, rfl, ?_⟩
      rintro ⟨u, e, hx⟩; rw [hc] at hx; cases hx
    · cases e with
      | nil => simp only [hc]; exact .inl ⟨⟨_, rfl⟩, i, rfl, fun _ => ⟨u, hc⟩⟩
      | cons a e =>
        simp only [hc]
        refine .inr ⟨⟨⟨_, rfl⟩, by trivial⟩, ?_⟩
        rintro ⟨j, hj, hx⟩
        cases hj
        obtain ⟨v, hv⟩ := hx ⟨u, _, hc⟩
        rw [hc] at hv; cases hv
    · simp only [hc]
      refine .inl ⟨⟨_, rfl⟩, i, rfl, ?_⟩
      rintro ⟨u, e, hx⟩; rw [hc] at hx; cases hx

/-- **C144**, ReadDir: without a failure of the system it succeeds exactly if the path leads to a directory. -/
theorem C144_readDir (g : Growth) (fs : FS) (pd : List Name) (n : Name) (d : Nat) (t : Tree fs) (h : Plain fs pd n d)
    (hl : ∀ i, inode fs d n = some i → ¬ IsLink fs i)
    (hfit : ∀ (i u : Nat) (e : List (Name × Nat)), inode fs d n = some i → fs.nodes[i]? = some (.dir u e) → e.length < 2 ^ 63) :
    ((∃ v, Fs.readDir g none fs ⟨true, pd ++ [n]⟩ = .ok (Res.mkOk v)) ↔ ∃ i, inode fs d n = some i ∧ IsDir fs i) ∧
    ((¬ ∃ i, inode fs d n = some i ∧ IsDir fs i) →
      ∃ e, Fs.readDir g none fs ⟨true, pd ++ [n]⟩ = .ok (Res.mkErr (some e))) := by
  have hr := Plain.resolve t h true (fun _ => hl)
  suffices hs : ((∃ v, Fs.readDir g none fs ⟨true, pd ++ [n]⟩ = .ok (Res.mkOk v)) ∧ ∃ i, inode fs d n = some i ∧ IsDir fs i) ∨
      ((∃ e, Fs.readDir g none fs ⟨true, pd ++ [n]⟩ = .ok (Res.mkErr (some e))) ∧
        ¬ ∃ i, inode fs d n = some i ∧ IsDir fs i) by
    rcases hs with ⟨h1, h2⟩ | ⟨⟨e, h1⟩, h2⟩
    · exact ⟨⟨fun _ => h2, fun _ => h1⟩, fun h => absurd h2 h⟩
    · refine ⟨⟨fun ⟨v, hv⟩ => ?_, fun h => absurd h h2⟩, fun _ => ⟨e, h1⟩⟩
      rw [h1] at hv
      exact absurd (Except.ok.inj hv) mkErr_ne_mkOk
  unfold Fs.readDir Os.readDir
  rw [hr]
  cases hi : inode fs d n with
  | none => exact .inr ⟨⟨_, rfl⟩, by rintro ⟨i, hc, -⟩; cases hc⟩
  | some i =>
    rcases node_cases t hi with ⟨c, hc⟩ | ⟨u, e, hc⟩ | hc
    · simp only [hc]
      refine .inr ⟨⟨_, rfl⟩, ?_⟩
      rintro ⟨j, hj, u, e, hx⟩; cases hj; rw [hc] at hx; cases hx
    · simp only [hc]
      refine .inl ⟨?_, i, rfl, u, e, hc⟩
      have hn := hfit i u e hi hc
      simp only [Vec.withLen, makeLen, List.length_map, List.length_mergeSort, hn, if_true, Go.bind_ok]
      exact ⟨_, rfl⟩
    · exact absurd hc (hl i hi)

/-- **C144**, Copy: without a failure of the system it succeeds exactly if there is something but not a directory
under the first path and nothing under the second.  (That it makes a second name and not a copy is C86.) -/
theorem C144_copy (fs : FS) (pd pd' : List Name) (n n' : Name) (d d' : Nat) (t : Tree fs) (h : Plain fs pd n d)
    (h' : Plain fs pd' n' d') :
    (Succeeds (Fs.copy none fs ⟨true, pd ++ [n]⟩ ⟨true, pd' ++ [n']⟩).1 ↔
      (∃ i, inode fs d n = some i ∧ ¬ IsDir fs i) ∧ inode fs d' n' = none) ∧
    (¬ Succeeds (Fs.copy none fs ⟨true, pd ++ [n]⟩ ⟨true, pd' ++ [n']⟩).1 →
      Refused (Fs.copy none fs ⟨true, pd ++ [n]⟩ ⟨true, pd' ++ [n']⟩).1 ∧
      (Fs.copy none fs ⟨true, pd ++ [n]⟩ ⟨true, pd' ++ [n']⟩).2 = fs) := by
  have hr := Plain.resolve t h false (fun e => by cases e)
  obtain ⟨up, es, hp, hd⟩ := Plain.parent t h'
  suffices hs : (Succeeds (Fs.copy none fs ⟨true, pd ++ [n]⟩ ⟨true, pd' ++ [n']⟩).1 ∧
      ((∃ i, inode fs d n = some i ∧ ¬ IsDir fs i) ∧ inode fs d' n' = none)) ∨
      ((Refused (Fs.copy none fs ⟨true, pd ++ [n]⟩ ⟨true, pd' ++ [n']⟩).1 ∧
      (Fs.copy none fs ⟨true, pd ++ [n]⟩ ⟨true, pd' ++ [n']⟩).2 = fs) ∧
      ¬ ((∃ i, inode fs d n = some i ∧ ¬ IsDir fs i) ∧ inode fs d' n' = none)) by
    rcases hs with ⟨h1, h2⟩ | ⟨h1, h2⟩
    · exact ⟨⟨fun _ => h2, fun _ => h1⟩, fun h => absurd h1 h⟩
    · exact ⟨⟨fun h => absurd h (refused_not h1.1), fun h => absurd h h2⟩, fun _ => h1⟩
  unfold Fs.copy link
  rw [hr]
  simp only [hp, entry_of hd]
  cases hi : inode fs d n with
  | none => exact .inr ⟨⟨⟨_, rfl⟩, by trivial⟩, by rintro ⟨⟨i, hc, -⟩, -⟩; cases hc⟩
  | some i =>
    simp only
    cases hn : es.lookup n' with
    | some j => exact .inr ⟨⟨⟨_, rfl⟩, by trivial⟩, by rintro ⟨-, hc⟩; cases hc⟩
    | none =>
      simp only
      rcases node_cases t hi with ⟨c, hc⟩ | ⟨u, e, hc⟩ | ⟨p, hc⟩
      · simp only [hc]
        exact .inl ⟨⟨_, rfl⟩, ⟨i, rfl, by rintro ⟨u, e, hx⟩; rw [hc] at hx; cases hx⟩, by trivial⟩
      · simp only [hc]
        exact .inr ⟨⟨⟨_, rfl⟩, by trivial⟩, by rintro ⟨⟨j, hj, hx⟩, -⟩; cases hj; exact hx ⟨u, e, hc⟩⟩
      · simp only [hc]
        exact .inl ⟨⟨_, rfl⟩, ⟨i, rfl, by rintro ⟨u, e, hx⟩; rw [hc] at hx; cases hx⟩, by trivial⟩

/-- **C144**, Rename: without a failure of the system it succeeds exactly if there is something under the first path,
and either nothing under the second, and the first is not a directory that the second would be in, or neither of
the two is a directory. -/
theorem C144_rename (fs : FS) (pd pd' : List Name) (n n' : Name) (d d' : Nat) (t : Tree fs) (h : Plain fs pd n d)
    (h' : Plain fs pd' n' d') :
    (Succeeds (Fs.rename none fs ⟨true, pd ++ [n]⟩ ⟨true, pd' ++ [n']⟩).1 ↔
      ∃ i, inode fs d n = some i ∧
        ((inode fs d' n' = none ∧ (IsDir fs i → ¬ pd ++ [n] <+: pd')) ∨
         ∃ j, inode fs d' n' = some j ∧ ¬ IsDir fs i ∧ ¬ IsDir fs j)) ∧
    (¬ Succeeds (Fs.rename none fs ⟨true, pd ++ [n]⟩ ⟨true, pd' ++ [n']⟩).1 →
      Refused (Fs.rename none fs ⟨true, pd ++ [n]⟩ ⟨true, pd' ++ [n']⟩).1 ∧
      (Fs.rename none fs ⟨true, pd ++ [n]⟩ ⟨true, pd' ++ [n']⟩).2 = fs) := by
  suffices hs : (Succeeds (Fs.rename none fs ⟨true, pd ++ [n]⟩ ⟨true, pd' ++ [n']⟩).1 ∧
      ∃ i, inode fs d n = some i ∧
        ((inode fs d' n' = none ∧ (IsDir fs i → ¬ pd ++ [n] <+: pd')) ∨
         ∃ j, inode fs d' n' = some j ∧ ¬ IsDir fs i ∧ ¬ IsDir fs j)) ∨
      ((Refused (Fs.rename none fs ⟨true, pd ++ [n]⟩ ⟨true, pd' ++ [n']⟩).1 ∧
      (Fs.rename none fs ⟨true, pd ++ [n]⟩ ⟨true, pd' ++ [n']⟩).2 = fs) ∧
      ¬ ∃ i, inode fs d n = some i ∧
        ((inode fs d' n' = none ∧ (IsDir fs i → ¬ pd ++ [n] <+: pd')) ∨
         ∃ j, inode fs d' n' = some j ∧ ¬ IsDir fs i ∧ ¬ IsDir fs j)) by
    rcases hs with ⟨h1, h2⟩ | ⟨h1, h2⟩
    · exact ⟨⟨fun _ => h2, fun _ => h1⟩, fun h => absurd h1 h⟩
    · exact ⟨⟨fun h => absurd h (refused_not h1.1), fun h => absurd h h2⟩, fun _ => h1⟩
  have ra := Plain.resolve t h false (fun e => by cases e)
  have rb := Plain.resolve t h' false (fun e => by cases e)
  obtain ⟨up, es, hp, hd⟩ := Plain.parent t h
  obtain ⟨up', es', hp', hd'⟩ := Plain.parent t h'
  cases hi : inode fs d n with
  | none =>
    refine .inr ⟨?_, by rintro ⟨i, hc, -⟩; cases hc⟩
    rw [hi] at ra
    rw [entry_of hd] at hi
    have hsys : sysRename fs ⟨true, pd ++ [n]⟩ ⟨true, pd' ++ [n']⟩ = .error .ENOENT := by
      unfold sysRename; rw [hp, hp']; simp only [hi]
    unfold Fs.rename Os.rename lstat
    rw [ra, rb]
    simp only [hsys]
    cases hj : inode fs d' n' with
    | none => exact ⟨⟨_, rfl⟩, by trivial⟩
    | some j =>
      simp only
      match hx : fs.nodes[j]? with
      | some (.dir u e) => exact ⟨⟨_, rfl⟩, by trivial⟩
      | some (.file c) => exact ⟨⟨_, rfl⟩, by trivial⟩
      | some (.link p) => exact ⟨⟨_, rfl⟩, by trivial⟩
      | none => exact ⟨⟨_, rfl⟩, by trivial⟩
  | some i =>
    rw [hi] at ra
    have hi0 := hi
    rw [entry_of hd] at hi
    cases hj : inode fs d' n' with
    | none =>
      rw [hj] at rb
      rw [entry_of hd'] at hj
      have e : Fs.rename none fs ⟨true, pd ++ [n]⟩ ⟨true, pd' ++ [n']⟩ =
          match sysRename fs ⟨true, pd ++ [n]⟩ ⟨true, pd' ++ [n']⟩ with
          | .error e => (Res.mkErr (some e), fs)
          | .ok fs => (Res.mkOk (), fs) := by
        unfold Fs.rename Os.rename lstat
        rw [rb]
        rfl
      rw [e]
      unfold sysRename
      rw [hp, hp']
      simp only [hi, hj, reduceCtorEq, if_false]
      rcases node_cases t hi0 with ⟨c, hc⟩ | ⟨u, e, hc⟩ | ⟨p, hc⟩
      · simp only [hc, Bool.false_and, Bool.false_eq_true, if_false]
        exact .inl ⟨⟨_, rfl⟩, i, rfl, .inl ⟨by trivial, by rintro ⟨u, e, hx⟩; rw [hc] at hx; cases hx⟩⟩
      · simp only [hc, Bool.true_and]
        have hia : reach fs 0 (pd ++ [n]) = some i := reach_snoc.2 ⟨d, h.dir, hi0⟩
        cases hab : isAbove fs i fs.nodes.length d' with
        | true =>
          simp only [if_true]
          refine .inr ⟨⟨⟨_, rfl⟩, by trivial⟩, ?_⟩
          rintro ⟨k, hk, ⟨-, hx⟩ | ⟨j, hx, -⟩⟩
          · cases hk
            obtain ⟨p, hp1, hp2⟩ := isAbove_prefix t hab h'.dir h'.isDir
            rw [t.onePath hp2 hia ⟨u, e, hc⟩] at hp1
            exact hx ⟨u, e, hc⟩ hp1
          · cases hx
        | false =>
          simp only [Bool.false_eq_true, if_false]
          refine .inl ⟨⟨_, rfl⟩, i, rfl, .inl ⟨by trivial, ?_⟩⟩
          rintro - ⟨r, hr⟩
          have hir : reach fs i r = some d' := by
            have := h'.dir
            rw [← hr, reach_append, hia] at this
            exact this
          have hs := t.short h'.dir h'.isDir
          rw [isAbove_reach t hir h'.isDir _ (by rw [← hr] at hs; simp at hs; omega)] at hab
          cases hab
      · simp only [hc, Bool.false_and, Bool.false_eq_true, if_false]
        exact .inl ⟨⟨_, rfl⟩, i, rfl, .inl ⟨by trivial, by rintro ⟨u, e, hx⟩; rw [hc] at hx; cases hx⟩⟩
    | some j =>
      rw [hj] at rb
      have hj0 := hj
      rw [entry_of hd'] at hj
      by_cases hjd : IsDir fs j
      · refine .inr ⟨?_, ?_⟩
        · obtain ⟨u, e, hc⟩ := hjd
          unfold Fs.rename Os.rename lstat
          rw [ra, rb]
          simp only [hc]
          have hor : (Path.mk true (pd ++ [n]) = ⟨true, pd' ++ [n']⟩) ∨ i ≠ j := by
            by_cases hij : i = j
            · subst hij
              refine .inl ?_
              rw [t.onePath (reach_snoc.2 ⟨d, h.dir, hi0⟩) (reach_snoc.2 ⟨d', h'.dir, hj0⟩) ⟨u, e, hc⟩]
            · exact .inr hij
          rw [if_pos hor]
          exact ⟨⟨_, rfl⟩, by trivial⟩
        · rintro ⟨k, -, ⟨hx, -⟩ | ⟨l, hx, -, hy⟩⟩
          · cases hx
          · cases hx; exact hy hjd
      · have e : Fs.rename none fs ⟨true, pd ++ [n]⟩ ⟨true, pd' ++ [n']⟩ =
            match sysRename fs ⟨true, pd ++ [n]⟩ ⟨true, pd' ++ [n']⟩ with
            | .error e => (Res.mkErr (some e), fs)
            | .ok fs => (Res.mkOk (), fs) := by
          unfold Fs.rename Os.rename lstat
          rw [rb]
          simp only
          match hx : fs.nodes[j]? with
          | some (.dir u e) => exact absurd ⟨u, e, hx⟩ hjd
          | some (.file c) => rfl
          | some (.link p) => rfl
          | none => rfl
        rw [e]
        unfold sysRename
        rw [hp, hp']
        simp only [hi, hj]
        have hjn : ∀ {β : Type} (f : Nat → List (Name × Nat) → β) (g : β),
            (match fs.nodes[j]? with | some (.dir u e) => f u e | _ => g) = g := by
          intro β f g
          match hx : fs.nodes[j]? with
          | some (.dir u e) => exact absurd ⟨u, e, hx⟩ hjd
          | some (.file c) => rfl
          | some (.link p) => rfl
          | none => rfl
        by_cases hij : j = i
        · subst hij
          simp only [if_true]
          exact .inl ⟨⟨_, rfl⟩, j, rfl, .inr ⟨j, rfl, hjd, hjd⟩⟩
        · rw [if_neg (by intro hc; exact hij (Option.some.inj hc))]
          rcases node_cases t hj0 with ⟨cj, hcj⟩ | hcj | ⟨cj, hcj⟩
          rotate_left
          · exact absurd hcj hjd
          all_goals
            rcases node_cases t hi0 with ⟨c, hc⟩ | ⟨u, e, hc⟩ | ⟨p, hc⟩
            · simp only [hc, hcj, Bool.false_and, Bool.false_eq_true, if_false]
              exact .inl ⟨⟨_, rfl⟩, i, rfl, .inr ⟨j, rfl, (by rintro ⟨u, e, hx⟩; rw [hc] at hx; cases hx), hjd⟩⟩
            · simp only [hc, hcj, if_true]
              refine .inr ⟨⟨⟨_, rfl⟩, by trivial⟩, ?_⟩
              rintro ⟨k, hk, ⟨hx, -⟩ | ⟨l, -, hx, -⟩⟩
              · cases hx
              · cases hk; exact hx ⟨u, e, hc⟩
            · simp only [hc, hcj, Bool.false_and, Bool.false_eq_true, if_false]
              exact .inl ⟨⟨_, rfl⟩, i, rfl, .inr ⟨j, rfl, (by rintro ⟨u, e, hx⟩; rw [hc] at hx; cases hx), hjd⟩⟩

/-- **C144**, paths whose directory does not exist: whatever else goes wrong, every function returns an error and
nothing changes. -/
theorem C144_lost (g : Growth) (fs : FS) (pd : List Name) (n : Name) (b : Path) (f f' : Option Errno)
    (w : Option (Nat × Errno)) (data : List UInt8) (t : Tree fs) (h : Lost fs pd) :
    Refused (Fs.read f f' fs ⟨true, pd ++ [n]⟩) ∧ Refused (Fs.readToString f f' fs ⟨true, pd ++ [n]⟩) ∧
    (∃ e, Fs.readDir g f fs ⟨true, pd ++ [n]⟩ = .ok (Res.mkErr (some e))) ∧
    ∀ c ∈ [Fs.write f w fs ⟨true, pd ++ [n]⟩ data, Fs.createDir f fs ⟨true, pd ++ [n]⟩,
        Fs.removeFile f fs ⟨true, pd ++ [n]⟩, Fs.removeDir f fs ⟨true, pd ++ [n]⟩,
        Fs.copy f fs ⟨true, pd ++ [n]⟩ b, Fs.copy f fs b ⟨true, pd ++ [n]⟩,
        Fs.rename f fs ⟨true, pd ++ [n]⟩ b, Fs.rename f fs b ⟨true, pd ++ [n]⟩],
      Refused c.1 ∧ c.2 = fs := by
  obtain ⟨e1, h1⟩ := lost_resolve t n h true
  obtain ⟨e2, h2⟩ := lost_resolve t n h false
  obtain ⟨e3, h3⟩ := lost_parent t n h
  have ho : ∃ e, open_ f fs ⟨true, pd ++ [n]⟩ = .error e := by
    unfold open_; cases f with
    | some e => exact ⟨e, rfl⟩
    | none => rw [h1]; exact ⟨_, rfl⟩
  have hw : ∃ e, create f fs ⟨true, pd ++ [n]⟩ = .error e := by
    unfold create; cases f with
    | some e => exact ⟨e, rfl⟩
    | none => rw [h1]; exact ⟨_, rfl⟩
  have hm : ∃ e, mkdir f fs ⟨true, pd ++ [n]⟩ = .error e := by
    unfold mkdir; cases f with
    | some e => exact ⟨e, rfl⟩
    | none => rw [h3]; cases e3 <;> exact ⟨_, rfl⟩
  have hr : ∃ e, remove f fs ⟨true, pd ++ [n]⟩ = .error e := by
    unfold remove unlink rmdir; cases f with
    | some e => exact ⟨e, rfl⟩
    | none => rw [h3]; exact ⟨_, rfl⟩
  have hc1 : ∃ e, link f fs ⟨true, pd ++ [n]⟩ b = .error e := by
    unfold link; cases f with
    | some e => exact ⟨e, rfl⟩
    | none => rw [h2]; exact ⟨_, rfl⟩
  have hc2 : ∃ e, link f fs b ⟨true, pd ++ [n]⟩ = .error e := by
    match hx : link f fs b ⟨true, pd ++ [n]⟩ with
    | .error e => exact ⟨e, rfl⟩
    | .ok fs' =>
      obtain ⟨-, i, d, up, es, m, -, hp, -⟩ := link_spec hx
      rw [h3] at hp; cases hp
  have hn1 : ∃ e, Os.rename f fs ⟨true, pd ++ [n]⟩ b = .error e := by
    match hx : Os.rename f fs ⟨true, pd ++ [n]⟩ b with
    | .error e => exact ⟨e, rfl⟩
    | .ok fs' =>
      obtain ⟨-, hs⟩ := rename_sys hx
      obtain ⟨d0, up, es, m, d0', up', es', m', i0, hpa, -⟩ := sysRename_spec hs
      rw [h3] at hpa; cases hpa
  have hn2 : ∃ e, Os.rename f fs b ⟨true, pd ++ [n]⟩ = .error e := by
    match hx : Os.rename f fs b ⟨true, pd ++ [n]⟩ with
    | .error e => exact ⟨e, rfl⟩
    | .ok fs' =>
      obtain ⟨-, hs⟩ := rename_sys hx
      obtain ⟨d0, up, es, m, d0', up', es', m', i0, -, hpb, -⟩ := sysRename_spec hs
      rw [h3] at hpb; cases hpb
  obtain ⟨_, ho⟩ := ho
  obtain ⟨_, hw⟩ := hw
  obtain ⟨_, hm⟩ := hm
  obtain ⟨_, hr⟩ := hr
  obtain ⟨_, hc1⟩ := hc1
  obtain ⟨_, hc2⟩ := hc2
  obtain ⟨_, hn1⟩ := hn1
  obtain ⟨_, hn2⟩ := hn2
  refine ⟨?_, ?_, ?_, ?_⟩
  · unfold Fs.read; rw [ho]; exact ⟨_, rfl⟩
  · unfold Fs.readToString; rw [ho]; exact ⟨_, rfl⟩
  · unfold Fs.readDir Os.readDir; cases f with
    | some e => exact ⟨_, rfl⟩
    | none => rw [h1]; exact ⟨_, rfl⟩
  · intro c hc
    simp only [List.mem_cons, List.not_mem_nil, or_false] at hc
    rcases hc with rfl | rfl | rfl | rfl | rfl | rfl | rfl | rfl
    · unfold Fs.write; rw [hw]; exact ⟨⟨_, rfl⟩, by trivial⟩
    · unfold Fs.createDir; rw [hm]; exact ⟨⟨_, rfl⟩, by trivial⟩
    · unfold Fs.removeFile; rw [hr]; exact ⟨⟨_, rfl⟩, by trivial⟩
    · unfold Fs.removeDir; rw [hr]; exact ⟨⟨_, rfl⟩, by trivial⟩
    · unfold Fs.copy; rw [hc1]; exact ⟨⟨_, rfl⟩, by trivial⟩
    · unfold Fs.copy; rw [hc2]; exact ⟨⟨_, rfl⟩, by trivial⟩
    · unfold Fs.rename; rw [hn1]; exact ⟨⟨_, rfl⟩, by trivial⟩
    · unfold Fs.rename; rw [hn2]; exact ⟨⟨_, rfl⟩, by trivial⟩

/-! The hypotheses hold: `/d` is directory 1 with the file `x` (inode 2) and the directory `s` (inode 3), `/e` is
directory 4. -/
theorem Fs.grown_d (n : Name) (hn : n ≠ dot ∧ n ≠ dotdot) : Plain (runAll Fs.blank Fs.grown) [[100]] n 1 :=
  ⟨by decide +kernel, ⟨0, [([120], 2), ([115], 3)], by decide +kernel⟩, hn, by decide +kernel⟩
theorem Fs.grown_top (n : Name) (hn : n ≠ dot ∧ n ≠ dotdot) : Plain (runAll Fs.blank Fs.grown) [] n 0 :=
  ⟨rfl, ⟨0, [([100], 1), ([101], 4)], by decide +kernel⟩, hn, by decide +kernel⟩

-- `/d/x` can be read, `/d/y` cannot, `/d` cannot
example : Succeeds (Fs.read none none (runAll Fs.blank Fs.grown) ⟨true, [[100], [120]]⟩) ∧
    Refused (Fs.read none none (runAll Fs.blank Fs.grown) ⟨true, [[100], [121]]⟩) ∧
    Refused (Fs.read none none (runAll Fs.blank Fs.grown) ⟨true, [[100]]⟩) :=
  ⟨⟨[7], by decide +kernel⟩, ⟨.ENOENT, by decide +kernel⟩, ⟨.EISDIR, by decide +kernel⟩⟩
example : inode (runAll Fs.blank Fs.grown) 1 [120] = some 2 ∧ inode (runAll Fs.blank Fs.grown) 1 [121] = none ∧
    (runAll Fs.blank Fs.grown).nodes[2]? = some (.file [7]) ∧
    inode (runAll Fs.blank Fs.grown) 0 [100] = some 1 ∧ inode (runAll Fs.blank Fs.grown) 1 [115] = some 3 ∧
    (runAll Fs.blank Fs.grown).nodes[3]? = some (.dir 1 []) := by decide +kernel
-- `/d/s` can be removed and `/d` cannot; `/d/s` can be renamed to `/e/t` and to `/d/t`, but not to `/d/s/t`, `/d/x`, `/e`
example : (Fs.removeFile none (runAll Fs.blank Fs.grown) ⟨true, [[100], [115]]⟩).1 = Res.mkOk () ∧
    (Fs.removeDir none (runAll Fs.blank Fs.grown) ⟨true, [[100]]⟩).1 = Res.mkErr (some .ENOTEMPTY) ∧
    (Fs.rename none (runAll Fs.blank Fs.grown) ⟨true, [[100], [115]]⟩ ⟨true, [[101], [116]]⟩).1 = Res.mkOk () ∧
    (Fs.rename none (runAll Fs.blank Fs.grown) ⟨true, [[100], [115]]⟩ ⟨true, [[100], [116]]⟩).1 = Res.mkOk () ∧
    (Fs.rename none (runAll Fs.blank Fs.grown) ⟨true, [[100], [115]]⟩ ⟨true, [[100], [115], [116]]⟩).1 = Res.mkErr (some .EINVAL) ∧
    (Fs.rename none (runAll Fs.blank Fs.grown) ⟨true, [[100], [115]]⟩ ⟨true, [[100], [120]]⟩).1 = Res.mkErr (some .ENOTDIR) ∧
    (Fs.rename none (runAll Fs.blank Fs.grown) ⟨true, [[100], [115]]⟩ ⟨true, [[101]]⟩).1 = Res.mkErr (some .EEXIST) ∧
    (Fs.copy none (runAll Fs.blank Fs.grown) ⟨true, [[100], [120]]⟩ ⟨true, [[101], [116]]⟩).1 = Res.mkOk () ∧
    (Fs.copy none (runAll Fs.blank Fs.grown) ⟨true, [[100], [115]]⟩ ⟨true, [[101], [116]]⟩).1 = Res.mkErr (some .EPERM) := by
  decide +kernel
-- `/f/g` (there is no `/f`) and `/d/x/g` (`/d/x` is a file) lead nowhere
example : Lost (runAll Fs.blank Fs.grown) [[102]] :=
  .inl ⟨[], [102], [], 0, rfl, by decide, by decide, rfl, ⟨0, [([100], 1), ([101], 4)], by decide +kernel⟩, by decide +kernel⟩
example : Lost (runAll Fs.blank Fs.grown) [[100], [120]] :=
  .inr ⟨[[100], [120]], [], 2, rfl, by decide +kernel, [7], by decide +kernel⟩
-- an empty directory of size 0
example : (Fs.read none none { runAll Fs.blank Fs.grown with dirSize := fun _ => 0 } ⟨true, [[100], [115]]⟩) = Res.mkOk [] := by
  decide +kernel
end Gost
