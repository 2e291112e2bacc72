import Verif.Props.Fs
/-
Properties C106 (Rename, directories included) and C131 (the directories remain a tree).
-/
namespace Gost
open Os Fs

namespace Spec
/-- The inode under a name in a directory. -/
def inode (fs : FS) (d : Nat) (n : Name) : Option Nat :=
  match fs.nodes[d]? with
  | some (.dir _ es) => es.lookup n
  | _ => none

/-- The inode below `s` under a sequence of names: from directory to directory, no links, no `.` and `..`. -/
def reach (fs : FS) (s : Nat) : List Name → Option Nat
  | [] => some s
  | n :: q =>
    match inode fs s n with
    | some x => reach fs x q
    | none => none

/-- An inode is a directory. -/
def IsDir (fs : FS) (k : Nat) : Prop := ∃ up es, fs.nodes[k]? = some (.dir up es)

/-- The directories are a tree: a directory has one name, in the directory that is its `..`, and the root has none.
(A directory that was removed has no name any more, but a process may still be in it.) -/
structure Tree (fs : FS) : Prop where
  top : ∃ es, fs.nodes[0]? = some (.dir 0 es)
  cwd : IsDir fs fs.cwd
  dots : ∀ d, inode fs d dot = none ∧ inode fs d dotdot = none
  upDir : ∀ (k u : Nat) (es : List (Name × Nat)), fs.nodes[k]? = some (.dir u es) → IsDir fs u
  root : ∀ d n, inode fs d n ≠ some 0
  up : ∀ d n k, inode fs d n = some k → IsDir fs k → ∃ es, fs.nodes[k]? = some (.dir d es)
  name : ∀ d n n' k, inode fs d n = some k → inode fs d n' = some k → IsDir fs k → n = n'
  range : ∀ d n k, inode fs d n = some k → k < fs.nodes.length
end Spec
open Spec

namespace Fs
theorem entry_dir {fs : FS} {d k : Nat} {n : Name} (h : inode fs d n = some k) : IsDir fs d := by
  unfold inode at h
  match hd : fs.nodes[d]? with
  | some (.dir up es) => exact ⟨up, es, hd⟩
  | some (.file c) => rw [hd] at h; cases h
  | some (.link t) => rw [hd] at h; cases h
  | none => rw [hd] at h; cases h

theorem entry_of {fs : FS} {d up : Nat} {es : List (Name × Nat)} (h : fs.nodes[d]? = some (.dir up es)) (n : Name) :
    inode fs d n = es.lookup n := by
  unfold inode; rw [h]

theorem reach_append (fs : FS) (s : Nat) (p q : List Name) :
    reach fs s (p ++ q) = match reach fs s p with | some x => reach fs x q | none => none := by
  induction p generalizing s with
  | nil => rfl
  | cons n p ih =>
    rw [List.cons_append, reach, reach]
    cases inode fs s n with
    | none => rfl
    | some x => exact ih x

theorem reach_snoc {fs : FS} {s k : Nat} {p : List Name} {n : Name} :
    reach fs s (p ++ [n]) = some k ↔ ∃ x, reach fs s p = some x ∧ inode fs x n = some k := by
  rw [reach_append]
  cases h : reach fs s p with
  | none => simp
  | some x =>
    simp only [reach]
    cases hx : inode fs x n with
    | none => simp [hx]
    | some y => simp [hx]

theorem snoc_cases (l : List Name) : l = [] ∨ ∃ p n, l = p ++ [n] := by
  rcases List.eq_nil_or_concat l with h | ⟨p, n, h⟩
  · exact Or.inl h
  · exact Or.inr ⟨p, n, by simpa using h⟩

/-- In a tree a directory is reached in one way. -/
theorem _root_.Gost.Spec.Tree.onePath {fs : FS} (t : Tree fs) {q q' : List Name} {k : Nat} (h : reach fs 0 q = some k)
    (h' : reach fs 0 q' = some k) (hk : IsDir fs k) : q = q' := by
  generalize hl : q.length = l
  induction l generalizing q q' k with
  | zero =>
    have : q = [] := List.length_eq_zero_iff.1 hl
    subst this
    rcases snoc_cases q' with rfl | ⟨p, n, rfl⟩
    · rfl
    · obtain ⟨x, -, hx⟩ := reach_snoc.1 h'
      cases h
      exact absurd hx (t.root x n)
  | succ l ih =>
    rcases snoc_cases q with rfl | ⟨p, n, rfl⟩
    · simp at hl
    · obtain ⟨x, h1, h2⟩ := reach_snoc.1 h
      rcases snoc_cases q' with rfl | ⟨p', n', rfl⟩
      · cases h'
        exact absurd h2 (t.root x n)
      · obtain ⟨x', h1', h2'⟩ := reach_snoc.1 h'
        obtain ⟨es, hu⟩ := t.up x n k h2 hk
        obtain ⟨es', hu'⟩ := t.up x' n' k h2' hk
        rw [hu] at hu'
        cases hu'
        rw [t.name x n n' k h2 h2' hk, ih h1 h1' (entry_dir h2) (by simpa using hl)]

/-! ### The parents of a directory inside another -/

theorem nodup_bound (l : List Nat) (n : Nat) (hn : l.Nodup) (hb : ∀ x ∈ l, x < n) : l.length ≤ n := by
  induction n generalizing l with
  | zero =>
    cases l with
    | nil => simp
    | cons a l => exact absurd (hb a (List.mem_cons_self ..)) (by omega)
  | succ n ih =>
    have h1 := ih (l.erase n) (hn.erase n) fun x hx => by
      have h2 := hb x (List.mem_of_mem_erase hx)
      have h3 : x ≠ n := by
        rintro rfl
        exact (List.Nodup.not_mem_erase hn) hx
      omega
    have := List.length_erase (a := n) (l := l)
    by_cases hc : n ∈ l
    · rw [if_pos hc] at this; omega
    · rw [if_neg hc] at this; omega

/-- A path to a directory is not longer than there are inodes. -/
theorem _root_.Gost.Spec.Tree.short {fs : FS} (t : Tree fs) {q : List Name} {k : Nat} (h : reach fs 0 q = some k) (hk : IsDir fs k) :
    q.length < fs.nodes.length := by
  have pre : ∀ j, j ≤ q.length → ∃ x, reach fs 0 (q.take j) = some x ∧ IsDir fs x := by
    intro j hj
    have e := List.take_append_drop j q
    rw [← e, reach_append] at h
    cases hx : reach fs 0 (q.take j) with
    | none => rw [hx] at h; cases h
    | some x =>
      refine ⟨x, rfl, ?_⟩
      rw [hx] at h
      cases hd : q.drop j with
      | nil => rw [hd] at h; cases h; exact hk
      | cons n r =>
        rw [hd] at h
        simp only [reach] at h
        cases hy : inode fs x n with
        | none => rw [hy] at h; cases h
        | some y => exact entry_dir hy
  have key : ∀ j, j ≤ q.length + 1 → ∃ l : List Nat, l.length = j ∧ l.Nodup ∧
      (∀ x ∈ l, x < fs.nodes.length) ∧ ∀ x ∈ l, ∃ i, i < j ∧ reach fs 0 (q.take i) = some x := by
    intro j
    induction j with
    | zero => intro _; exact ⟨[], rfl, List.nodup_nil, by simp, by simp⟩
    | succ j ih =>
      intro hj
      obtain ⟨l, h1, h2, h3, h4⟩ := ih (by omega)
      obtain ⟨x, hx, hdx⟩ := pre j (by omega)
      refine ⟨x :: l, by simp [h1], List.nodup_cons.2 ⟨?_, h2⟩, ?_, ?_⟩
      · intro hm
        obtain ⟨i, hi, hr⟩ := h4 x hm
        have := congrArg List.length (t.onePath hr hx hdx)
        rw [List.length_take, List.length_take] at this
        omega
      · intro y hy
        rcases List.mem_cons.1 hy with rfl | hy
        · obtain ⟨up, es, hn⟩ := hdx
          exact lt_of_node hn
        · exact h3 y hy
      · intro y hy
        rcases List.mem_cons.1 hy with rfl | hy
        · exact ⟨j, by omega, hx⟩
        · obtain ⟨i, hi, hr⟩ := h4 y hy
          exact ⟨i, by omega, hr⟩
  obtain ⟨l, h1, h2, h3, -⟩ := key (q.length + 1) (Nat.le_refl _)
  have := nodup_bound l _ h2 h3
  omega

theorem isAbove_reach {fs : FS} (t : Tree fs) {i d : Nat} {r : List Name} (h : reach fs i r = some d) (hd : IsDir fs d)
    (fuel : Nat) (hf : r.length ≤ fuel) : isAbove fs i fuel d = true := by
  induction fuel generalizing r d with
  | zero =>
    have : r = [] := List.length_eq_zero_iff.1 (by omega)
    subst this
    cases h
    simp [isAbove]
  | succ fuel ih =>
    rw [isAbove]
    rcases snoc_cases r with rfl | ⟨p, n, rfl⟩
    · cases h; simp
    · obtain ⟨x, h1, h2⟩ := reach_snoc.1 h
      obtain ⟨es, hu⟩ := t.up x n d h2 hd
      rw [hu]
      simp only
      rw [ih h1 (entry_dir h2) (by simpa using hf)]
      simp

/-! ### Rename on a tree -/

theorem sysRename_above {fs fs' : FS} {a b : Path} {d up d' up' i : Nat} {es es' : List (Name × Nat)} {n n' : Name}
    (h : sysRename fs a b = .ok fs') (ha : parent fs a = .ok (d, up, es, n)) (hb : parent fs b = .ok (d', up', es', n'))
    (hl : es.lookup n = some i) (hs : es'.lookup n' ≠ some i) (hi : IsDir fs i) :
    isAbove fs i fs.nodes.length d' = false := by
  obtain ⟨u, e, hi⟩ := hi
  unfold sysRename at h
  rw [ha, hb] at h
  simp only [hl, if_neg hs, hi] at h
  cases hc : isAbove fs i fs.nodes.length d' with
  | false => rfl
  | true =>
    exfalso
    rw [hc] at h
    simp only [Bool.true_and, if_true] at h
    repeat' split at h
    all_goals cases h

/-- The entries after a rename. -/
structure Moved (fs fs' : FS) (d : Nat) (n : Name) (d' : Nat) (n' : Name) (i : Nat) : Prop where
  inode : ∀ (k : Nat) (m : Name), Spec.inode fs' k m = if k = d' ∧ m = n' then some i else if k = d ∧ m = n then none else Spec.inode fs k m
  files : ∀ k : Nat, (∀ (u : Nat) (e : List (Name × Nat)), fs.nodes[k]? ≠ some (Node.dir u e)) → fs'.nodes[k]? = fs.nodes[k]?
  dirs : ∀ k : Nat, IsDir fs' k ↔ IsDir fs k
  up : ∀ (k u : Nat) (e : List (Name × Nat)), fs.nodes[k]? = some (Node.dir u e) → ∃ e' : List (Name × Nat), fs'.nodes[k]? = some (Node.dir (if k = i then d' else u) e')
  length : fs'.nodes.length = fs.nodes.length
  cwd : fs'.cwd = fs.cwd
  limit : fs'.limit = fs.limit

theorem lookup_set (es : List (Name × Nat)) (n m : Name) (i : Nat) :
    (es.filter (fun e => e.1 ≠ n) ++ [(n, i)]).lookup m = if m = n then some i else es.lookup m := by
  rw [lookup_concat, lookup_filter]
  by_cases h : m = n
  · subst h; simp
  · rw [if_neg h, if_neg h]
    cases es.lookup m <;> simp [h]

theorem moved {fs : FS} {d up d' up' i : Nat} {es es' : List (Name × Nat)} {n n' : Name}
    (hd : fs.nodes[d]? = some (.dir up es)) (hd' : fs.nodes[d']? = some (.dir up' es')) :
    Moved fs (reparent (setEntry (dropEntry fs d n) d' n' i) i d') d n d' n' i := by
  have h1 : ∀ k, (dropEntry fs d n).nodes[k]? =
      if k = d then some (.dir up (es.filter fun e => e.1 ≠ n)) else fs.nodes[k]? := by
    intro k
    unfold dropEntry
    rw [hd]
    show (fs.nodes.set d _)[k]? = _
    rw [get_set hd]
  obtain ⟨e1, he1, hm1⟩ : ∃ e1, (dropEntry fs d n).nodes[d']? = some (.dir up' e1) ∧
      ∀ m, e1.lookup m = if d' = d ∧ m = n then none else es'.lookup m := by
    rw [h1]
    by_cases hdd : d' = d
    · subst hdd
      rw [hd] at hd'
      cases hd'
      refine ⟨_, if_pos rfl, fun m => ?_⟩
      rw [lookup_filter]; simp
    · rw [if_neg hdd]
      exact ⟨es', hd', fun m => by rw [if_neg fun h => hdd h.1]⟩
  have h2 : ∀ k, (setEntry (dropEntry fs d n) d' n' i).nodes[k]? =
      if k = d' then some (.dir up' (e1.filter (fun e => e.1 ≠ n') ++ [(n', i)])) else (dropEntry fs d n).nodes[k]? := by
    intro k
    unfold setEntry
    rw [he1]
    show ((dropEntry fs d n).nodes.set d' _)[k]? = _
    rw [get_set he1]
  have l1 : (dropEntry fs d n).nodes.length = fs.nodes.length := by
    unfold dropEntry; rw [hd]; exact List.length_set
  have l2 : (setEntry (dropEntry fs d n) d' n' i).nodes.length = fs.nodes.length := by
    unfold setEntry; rw [he1, ← l1]; exact List.length_set
  have c2 : (setEntry (dropEntry fs d n) d' n' i).cwd = fs.cwd ∧ (setEntry (dropEntry fs d n) d' n' i).limit = fs.limit := by
    unfold setEntry; rw [he1]; unfold dropEntry; rw [hd]; exact ⟨rfl, rfl⟩
  generalize setEntry (dropEntry fs d n) d' n' i = g at *
  -- the directories and their entries before the parent is set
  have hg : ∀ (k u : Nat) (e : List (Name × Nat)), fs.nodes[k]? = some (.dir u e) → ∃ e', g.nodes[k]? = some (.dir u e') ∧
      ∀ m, e'.lookup m = if k = d' ∧ m = n' then some i else if k = d ∧ m = n then none else e.lookup m := by
    intro k u e hk
    rw [h2]
    by_cases hkd' : k = d'
    · subst hkd'
      rw [hd'] at hk
      cases hk
      refine ⟨_, if_pos rfl, fun m => ?_⟩
      rw [lookup_set, hm1]
      by_cases hm : m = n' <;> simp [hm]
    · rw [if_neg hkd', h1]
      by_cases hkd : k = d
      · subst hkd
        rw [hd] at hk
        cases hk
        refine ⟨_, if_pos rfl, fun m => ?_⟩
        rw [lookup_filter]
        by_cases hm : m = n <;> simp [hm, hkd']
      · rw [if_neg hkd]
        exact ⟨e, hk, fun m => by simp [hkd, hkd']⟩
  have hgf : ∀ k : Nat, (∀ (u : Nat) (e : List (Name × Nat)), fs.nodes[k]? ≠ some (.dir u e)) → g.nodes[k]? = fs.nodes[k]? := by
    intro k hk
    rw [h2, if_neg (by rintro rfl; exact hk _ _ hd'), h1, if_neg (by rintro rfl; exact hk _ _ hd)]
  have h3 : ∀ k : Nat, (reparent g i d').nodes[k]? =
      match g.nodes[k]? with | some (Node.dir u e) => some (Node.dir (if k = i then d' else u) e) | x => x := by
    intro k
    unfold reparent
    match hi : g.nodes[i]? with
    | some (.dir u e) =>
      show (g.nodes.set i _)[k]? = _
      rw [get_set hi]
      by_cases hk : k = i
      · subst hk; rw [if_pos rfl, hi]; simp
      · rw [if_neg hk]
        match g.nodes[k]? with
        | some (.dir u e) => simp [hk]
        | some (.file c) => rfl
        | some (.link c) => rfl
        | none => rfl
    | some (.file c) =>
      simp only
      match hk : g.nodes[k]? with
      | some (.dir u e) => simp only; rw [if_neg (by rintro rfl; rw [hi] at hk; cases hk)]
      | some (.file c) => rfl
      | some (.link c) => rfl
      | none => rfl
    | some (.link c) =>
      simp only
      match hk : g.nodes[k]? with
      | some (.dir u e) => simp only; rw [if_neg (by rintro rfl; rw [hi] at hk; cases hk)]
      | some (.file c) => rfl
      | some (.link c) => rfl
      | none => rfl
    | none =>
      simp only
      match hk : g.nodes[k]? with
      | some (.dir u e) => simp only; rw [if_neg (by rintro rfl; rw [hi] at hk; cases hk)]
      | some (.file c) => rfl
      | some (.link c) => rfl
      | none => rfl
  have l3 : (reparent g i d').nodes.length = fs.nodes.length := by
    unfold reparent
    match g.nodes[i]? with
    | some (.dir u e) => simp only; rw [← l2]; exact List.length_set
    | some (.file c) => exact l2
    | some (.link c) => exact l2
    | none => exact l2
  have c3 : (reparent g i d').cwd = fs.cwd ∧ (reparent g i d').limit = fs.limit := by
    unfold reparent
    match g.nodes[i]? with
    | some (.dir u e) => exact c2
    | some (.file c) => exact c2
    | some (.link c) => exact c2
    | none => exact c2
  generalize reparent g i d' = fs' at *
  have files : ∀ k : Nat, (∀ (u : Nat) (e : List (Name × Nat)), fs.nodes[k]? ≠ some (.dir u e)) → fs'.nodes[k]? = fs.nodes[k]? := by
    intro k hk
    rw [h3, hgf k hk]
    match h : fs.nodes[k]? with
    | some (.dir u e) => exact absurd h (hk u e)
    | some (.file c) => rfl
    | some (.link c) => rfl
    | none => rfl
  have dirs : ∀ (k u : Nat) (e : List (Name × Nat)), fs.nodes[k]? = some (.dir u e) → ∃ e', fs'.nodes[k]? = some (.dir (if k = i then d' else u) e') ∧
      ∀ m, e'.lookup m = if k = d' ∧ m = n' then some i else if k = d ∧ m = n then none else e.lookup m := by
    intro k u e hk
    obtain ⟨e', h1, h2⟩ := hg k u e hk
    exact ⟨e', by rw [h3, h1], h2⟩
  refine ⟨fun k m => ?_, files, fun k => ⟨fun h => ?_, fun ⟨u, e, h⟩ => ?_⟩, fun k u e h => ?_, l3, c3.1, c3.2⟩
  · by_cases hk : ∃ u e, fs.nodes[k]? = some (.dir u e)
    · obtain ⟨u, e, hk⟩ := hk
      obtain ⟨e', h1, h2⟩ := dirs k u e hk
      rw [entry_of h1, entry_of hk, h2]
    · have hk' : ∀ u e, fs.nodes[k]? ≠ some (.dir u e) := fun u e h => hk ⟨u, e, h⟩
      have hn : ∀ f : FS, f.nodes[k]? = fs.nodes[k]? → Spec.inode f k m = none := by
        intro f hf
        unfold Spec.inode
        rw [hf]
        match h : fs.nodes[k]? with
        | some (.dir u e) => exact absurd h (hk' u e)
        | some (.file c) => rfl
        | some (.link c) => rfl
        | none => rfl
      rw [hn fs' (files k hk'), hn fs rfl, if_neg (by rintro ⟨rfl, -⟩; exact hk' _ _ hd'),
        if_neg (by rintro ⟨rfl, -⟩; exact hk' _ _ hd)]
  · apply Classical.byContradiction
    intro hc
    obtain ⟨u, e, h⟩ := h
    rw [files k fun u e h => hc ⟨u, e, h⟩] at h
    exact hc ⟨u, e, h⟩
  · obtain ⟨e', h1, -⟩ := dirs k u e h
    exact ⟨_, e', h1⟩
  · obtain ⟨e', h1, -⟩ := dirs k u e h
    exact ⟨e', h1⟩

/-- The tree after a rename. -/
theorem moved_reach {fs fs' : FS} {d d' i : Nat} {n n' : Name} {pd pd' : List Name} (t : Tree fs)
    (m : Moved fs fs' d n d' n' i) (hl : inode fs d n = some i) (hs : IsDir fs d') (hpd : reach fs 0 pd = some d)
    (hpd' : reach fs 0 pd' = some d') (ho : ∀ r, reach fs i r ≠ some d') (q : List Name) (k : Nat) :
    reach fs' 0 q = some k ↔ (∃ r, q = pd' ++ [n'] ++ r ∧ reach fs i r = some k) ∨
      (¬ pd' ++ [n'] <+: q ∧ ¬ pd ++ [n] <+: q ∧ reach fs 0 q = some k) := by
  have hdd : IsDir fs d := entry_dir hl
  have hpa : reach fs 0 (pd ++ [n]) = some i := reach_snoc.2 ⟨d, hpd, hl⟩
  have hin : ∀ r x, reach fs i r = some x → x ≠ d ∧ x ≠ d' := by
    intro r x hx
    constructor
    · rintro rfl
      have h1 : reach fs 0 (pd ++ [n] ++ r) = some x := by rw [reach_append, hpa]; exact hx
      have := congrArg List.length (t.onePath h1 hpd hdd)
      simp at this
    · rintro rfl; exact ho r hx
  have pre : ∀ (p q : List Name) (m : Name), p <+: q ++ [m] ↔ p <+: q ∨ p = q ++ [m] := by
    intro p q m
    rw [List.prefix_concat_iff]
    exact Or.comm
  have npre : ∀ {x : Nat}, ¬ pd' ++ [n'] <+: pd' ∧ ¬ pd ++ [n] <+: pd' := by
    intro _
    constructor
    · intro h; have := h.length_le; rw [List.length_append, List.length_singleton] at this; omega
    · rintro ⟨s, hs⟩
      rw [← hs, reach_append, hpa] at hpd'
      exact ho s hpd'
  generalize hlen : q.length = l
  induction l generalizing q k with
  | zero =>
    have : q = [] := List.length_eq_zero_iff.1 hlen
    subst this
    constructor
    · intro h
      exact Or.inr ⟨by simp, by simp, h⟩
    · rintro (⟨r, h, -⟩ | ⟨-, -, h⟩)
      · simp at h
      · exact h
  | succ l ih =>
    rcases snoc_cases q with rfl | ⟨q, x, rfl⟩
    · simp at hlen
    · have ih := fun k => ih q k (by simpa using hlen)
      rw [reach_snoc]
      constructor
      · rintro ⟨y, h1, h2⟩
        rw [m.inode] at h2
        rcases (ih y).1 h1 with ⟨r, rfl, hr⟩ | ⟨hb, ha, hr⟩
        · obtain ⟨y1, y2⟩ := hin r y hr
          rw [if_neg (fun h => y2 h.1), if_neg (fun h => y1 h.1)] at h2
          exact Or.inl ⟨r ++ [x], by simp, reach_snoc.2 ⟨y, hr, h2⟩⟩
        · by_cases c1 : y = d' ∧ x = n'
          · rw [if_pos c1] at h2
            obtain ⟨rfl, rfl⟩ := c1
            cases h2
            refine Or.inl ⟨[], ?_, rfl⟩
            rw [t.onePath hr hpd' hs]; simp
          · rw [if_neg c1] at h2
            by_cases c2 : y = d ∧ x = n
            · rw [if_pos c2] at h2; cases h2
            · rw [if_neg c2] at h2
              refine Or.inr ⟨?_, ?_, reach_snoc.2 ⟨y, hr, h2⟩⟩
              · rw [pre]
                rintro (h | h)
                · exact hb h
                · obtain ⟨e1, e2⟩ := List.append_inj' h rfl
                  cases e2
                  rw [← e1, hpd'] at hr
                  cases hr
                  exact c1 ⟨rfl, rfl⟩
              · rw [pre]
                rintro (h | h)
                · exact ha h
                · obtain ⟨e1, e2⟩ := List.append_inj' h rfl
                  cases e2
                  rw [← e1, hpd] at hr
                  cases hr
                  exact c2 ⟨rfl, rfl⟩
      · rintro (⟨r, h, hr⟩ | ⟨hb, ha, hr⟩)
        · rcases snoc_cases r with rfl | ⟨r, z, rfl⟩
          · rw [List.append_nil] at h
            obtain ⟨e1, e2⟩ := List.append_inj' h rfl
            cases e2
            cases hr
            subst e1
            exact ⟨d', (ih d').2 (Or.inr ⟨(npre (x := 0)).1, (npre (x := 0)).2, hpd'⟩), by rw [m.inode, if_pos ⟨rfl, rfl⟩]⟩
          · rw [← List.append_assoc] at h
            obtain ⟨e1, e2⟩ := List.append_inj' h rfl
            cases e2
            obtain ⟨y, h1, h2⟩ := reach_snoc.1 hr
            obtain ⟨y1, y2⟩ := hin r y h1
            refine ⟨y, (ih y).2 (Or.inl ⟨r, e1, h1⟩), ?_⟩
            rw [m.inode, if_neg (fun h => y2 h.1), if_neg (fun h => y1 h.1)]; exact h2
        · obtain ⟨y, h1, h2⟩ := reach_snoc.1 hr
          rw [pre] at hb ha
          refine ⟨y, (ih y).2 (Or.inr ⟨fun h => hb (Or.inl h), fun h => ha (Or.inl h), h1⟩), ?_⟩
          rw [m.inode, if_neg, if_neg]
          · exact h2
          · rintro ⟨rfl, rfl⟩
            exact ha (Or.inr (by rw [t.onePath h1 hpd hdd]))
          · rintro ⟨rfl, rfl⟩
            exact hb (Or.inr (by rw [t.onePath h1 hpd' hs]))

/-- It is still a tree. -/
theorem moved_tree {fs fs' : FS} {d d' i : Nat} {n n' : Name} (t : Tree fs)
    (m : Moved fs fs' d n d' n' i) (hl : inode fs d n = some i) (hd' : IsDir fs d') (hn' : n' ≠ dot ∧ n' ≠ dotdot) :
    Tree fs' := by
  have old : ∀ x y k, inode fs' x y = some k → (x = d' ∧ y = n' ∧ k = i) ∨ (¬ (x = d ∧ y = n) ∧ inode fs x y = some k) := by
    intro x y k h
    rw [m.inode] at h
    by_cases c1 : x = d' ∧ y = n'
    · rw [if_pos c1] at h; cases h; exact Or.inl ⟨c1.1, c1.2, rfl⟩
    · rw [if_neg c1] at h
      by_cases c2 : x = d ∧ y = n
      · rw [if_pos c2] at h; cases h
      · rw [if_neg c2] at h; exact Or.inr ⟨c2, h⟩
  have only : ∀ x y, IsDir fs i → inode fs x y = some i → x = d ∧ y = n := by
    intro x y hi h
    obtain ⟨e, hu⟩ := t.up x y i h hi
    obtain ⟨e', hu'⟩ := t.up d n i hl hi
    rw [hu] at hu'
    cases hu'
    exact ⟨rfl, t.name _ y n i h hl hi⟩
  refine ⟨?_, ?_, fun x => ?_, fun k u e h => ?_, fun x y h => ?_, fun x y k h hk => ?_, fun x y y' k h h' hk => ?_, fun x y k h => ?_⟩
  · obtain ⟨es, h0⟩ := t.top
    obtain ⟨e', h'⟩ := m.up 0 0 es h0
    rw [if_neg (by rintro rfl; exact t.root _ _ hl)] at h'
    exact ⟨e', h'⟩
  · rw [m.cwd, m.dirs]; exact t.cwd
  · constructor
    · rw [m.inode, if_neg (fun h => hn'.1 h.2.symm), (t.dots x).1]; exact ite_self _
    · rw [m.inode, if_neg (fun h => hn'.2 h.2.symm), (t.dots x).2]; exact ite_self _
  · rw [m.dirs]
    obtain ⟨u0, e0, h0⟩ := (m.dirs k).1 ⟨u, e, h⟩
    obtain ⟨e', h'⟩ := m.up k u0 e0 h0
    rw [h'] at h
    cases h
    by_cases hki : k = i
    · rw [if_pos hki]; exact hd'
    · rw [if_neg hki]; exact t.upDir k u0 e0 h0
  · rcases old x y 0 h with ⟨-, -, h0⟩ | ⟨-, h⟩
    · subst h0; exact t.root _ _ hl
    · exact t.root _ _ h
  · rw [m.dirs] at hk
    rcases old x y k h with ⟨rfl, rfl, rfl⟩ | ⟨c, h⟩
    · obtain ⟨u, e, hn⟩ := hk
      obtain ⟨e', he⟩ := m.up k u e hn
      rw [if_pos rfl] at he
      exact ⟨e', he⟩
    · have hki : k ≠ i := by rintro rfl; exact c (only x y hk h)
      obtain ⟨e, hn⟩ := t.up x y k h hk
      obtain ⟨e', he⟩ := m.up k x e hn
      rw [if_neg hki] at he
      exact ⟨e', he⟩
  · rw [m.dirs] at hk
    rcases old x y k h with ⟨rfl, rfl, rfl⟩ | ⟨c, h⟩
    · rcases old x y' k h' with ⟨-, rfl, -⟩ | ⟨c, h'⟩
      · rfl
      · exact absurd (only x y' hk h') c
    · rcases old x y' k h' with ⟨rfl, rfl, rfl⟩ | ⟨c', h'⟩
      · exact absurd (only x y hk h) c
      · exact t.name x y y' k h h' hk
  · rw [m.length]
    rcases old x y k h with ⟨-, -, rfl⟩ | ⟨-, h⟩
    · exact t.range _ _ _ hl
    · exact t.range _ _ _ h

/-- What a rename leaves behind at the new name is a file or an empty directory. -/
theorem sysRename_target {fs fs' : FS} {a b : Path} {d up d' up' i j : Nat} {es es' : List (Name × Nat)} {n n' : Name}
    (h : sysRename fs a b = .ok fs') (ha : parent fs a = .ok (d, up, es, n)) (hb : parent fs b = .ok (d', up', es', n'))
    (hl : es.lookup n = some i) (hs : es'.lookup n' ≠ some i) (hj : es'.lookup n' = some j) (m : Name) :
    inode fs j m = none := by
  unfold sysRename at h
  rw [ha, hb] at h
  simp only [hl, hj] at h
  unfold inode
  match hn : fs.nodes[j]? with
  | some (.file c) => rfl
  | some (.link c) => rfl
  | none => rfl
  | some (.dir u e) =>
    simp only
    rw [hn] at h
    rw [hj] at hs
    rw [if_neg hs] at h
    by_cases he : e = []
    · subst he; rfl
    · exfalso
      cases hi : fs.nodes[i]? with
      | none => simp [hi] at h
      | some x => cases x <;> simp [hi, he] at h

/-- The moved directory is not moved into itself. -/
theorem sysRename_outside {fs fs' : FS} {a b : Path} {d up d' up' i : Nat} {es es' : List (Name × Nat)} {n n' : Name}
    (t : Tree fs) (h : sysRename fs a b = .ok fs') (ha : parent fs a = .ok (d, up, es, n))
    (hb : parent fs b = .ok (d', up', es', n')) (hl : es.lookup n = some i) (hs : es'.lookup n' ≠ some i)
    {pd : List Name} (hpd : reach fs 0 pd = some d) (r : List Name) : reach fs i r ≠ some d' := by
  intro hr
  obtain ⟨hd, -⟩ := parent_ok ha
  obtain ⟨hd', -⟩ := parent_ok hb
  have hD' : IsDir fs d' := ⟨_, _, hd'⟩
  have hi : IsDir fs i := by
    cases r with
    | nil => cases hr; exact hD'
    | cons m r =>
      rw [reach] at hr
      cases hm : inode fs i m with
      | none => rw [hm] at hr; cases hr
      | some y => exact entry_dir hm
  have h1 := sysRename_above h ha hb hl hs hi
  have hpa : reach fs 0 (pd ++ [n]) = some i := reach_snoc.2 ⟨d, hpd, by rw [entry_of hd, hl]⟩
  have h2 : reach fs 0 (pd ++ [n] ++ r) = some d' := by rw [reach_append, hpa]; exact hr
  have h3 := t.short h2 hD'
  rw [isAbove_reach t hr hD' _ (by simp at h3; omega)] at h1
  cases h1

/-! ### Plain paths and path resolution -/

theorem walk_reach {fs : FS} (t : Tree fs) {f : Bool} {s k : Nat} {q : List Name} (h : reach fs s q = some k)
    (hk : f = true → ∀ p, fs.nodes[k]? ≠ some (.link p)) (fuel : Nat) :
    walk fs f fuel s q = if q.length ≤ fuel then .found k else .fail .ELOOP := by
  induction q generalizing s fuel with
  | nil => cases h; rw [walk_nil]; simp
  | cons n q ih =>
    cases fuel with
    | zero => rfl
    | succ fuel =>
      rw [reach] at h
      cases hx : inode fs s n with
      | none => rw [hx] at h; cases h
      | some x =>
        rw [hx] at h
        obtain ⟨up, es, hs⟩ := entry_dir hx
        have hn : n ≠ dot ∧ n ≠ dotdot :=
          ⟨fun e => by rw [e, (t.dots s).1] at hx; exact (by cases hx), fun e => by rw [e, (t.dots s).2] at hx; exact (by cases hx)⟩
        rw [entry_of hs] at hx
        rw [walk, hs]
        simp only [if_neg hn.1, if_neg hn.2, hx]
        have e : (if (n :: q).length ≤ fuel + 1 then Walk.found k else .fail .ELOOP) =
            if q.length ≤ fuel then Walk.found k else .fail .ELOOP := by simp
        rw [e, ← ih h fuel]
        match hy : fs.nodes[x]? with
        | some (.file c) => rfl
        | some (.dir u e) => rfl
        | none => rfl
        | some (.link p) =>
          cases q with
          | nil =>
            cases h
            cases f with
            | true => exact absurd hy (hk rfl p)
            | false => simp only [and_self, if_true]; rw [walk_nil]
          | cons m q =>
            have h : reach fs x (m :: q) = some k := h
            rw [reach, inode, hy] at h
            cases h

theorem dir_nolink {fs : FS} {k : Nat} (h : IsDir fs k) (p : Path) : fs.nodes[k]? ≠ some (.link p) := by
  obtain ⟨u, e, h⟩ := h
  intro hc
  rw [h] at hc
  cases hc

/-- The directory of a plain path. -/
theorem parent_reach {fs : FS} (t : Tree fs) {pd : List Name} {n m : Name} {d d0 up : Nat} {es : List (Name × Nat)}
    (h : parent fs ⟨true, pd ++ [n]⟩ = .ok (d0, up, es, m)) (hd : reach fs 0 pd = some d) (hD : IsDir fs d) :
    d0 = d ∧ m = n := by
  obtain ⟨-, -, -, hm, hw⟩ := parent_ok h
  simp only [List.dropLast_concat, if_true] at hm hw
  obtain ⟨-, e⟩ := List.append_inj' hm rfl
  rw [walk_reach t hd (fun _ => dir_nolink hD)] at hw
  split at hw
  · cases hw; cases e; exact ⟨rfl, rfl⟩
  · cases hw

theorem resolve_reach {fs : FS} (t : Tree fs) {q : List Name} {k : Nat} (h : reach fs 0 q = some k)
    (hq : q.length ≤ fs.limit + 1) : resolve fs false ⟨true, q⟩ = .found k := by
  unfold resolve
  simp only [Bool.true_eq_false, false_and, if_false, if_true]
  rw [walk_reach t h (fun h => by cases h), if_pos hq]

theorem resolve_absent_reach {fs : FS} (t : Tree fs) {q : List Name} {n : Name} {d : Nat} (h : reach fs 0 q = some d)
    (hD : IsDir fs d) (hn : n ≠ dot ∧ n ≠ dotdot) (he : inode fs d n = none) (hq : q.length ≤ fs.limit) :
    resolve fs false ⟨true, q ++ [n]⟩ = .absent d n := by
  obtain ⟨u, es, hd⟩ := hD
  rw [entry_of hd] at he
  have hw : walk fs true fs.limit (if (Path.mk true (q ++ [n])).abs then 0 else fs.cwd) (Path.mk true (q ++ [n])).names.dropLast
      = .found d := by
    simp only [List.dropLast_concat, if_true]
    rw [walk_reach t h (fun _ => dir_nolink ⟨u, es, hd⟩), if_pos hq]
  obtain ⟨k, hk⟩ := resolve_parent (f := false) (p := ⟨true, q ++ [n]⟩) (n := n) (by simp) hw
  rw [hk]
  exact walk_last_absent hd hn.1 hn.2 he
end Fs

/-- **C106**, for everything that can be renamed, directories too.  The full property: after a successful Rename(a, b),
b is what a was, a does not exist any more, and nothing else changes.  Proved for absolute paths without symbolic
links in them, in any file system whose directories are a tree (see C131), unless both are names of the same file
(`C106_same_fails`): afterwards b and everything below it is what a and everything below it was, a does not exist,
every other path leads to what it led to, and no file has changed.  A path that led to something below b is gone,
but b was a file or an empty directory. -/
theorem C106_tree_partial (f : Option Errno) (fs : FS) (pd pd' : List Name) (n n' : Name) (i d' : Nat) (t : Tree fs)
    (h : (Fs.rename f fs ⟨true, pd ++ [n]⟩ ⟨true, pd' ++ [n']⟩).1 = Res.mkOk ())
    (ha : reach fs 0 (pd ++ [n]) = some i) (hb : reach fs 0 pd' = some d') (hD : IsDir fs d')
    (hs : reach fs 0 (pd' ++ [n']) ≠ some i) :
    (∀ q k, reach (Fs.rename f fs ⟨true, pd ++ [n]⟩ ⟨true, pd' ++ [n']⟩).2 0 q = some k ↔
      (∃ r, q = pd' ++ [n'] ++ r ∧ reach fs i r = some k) ∨
      (¬ pd' ++ [n'] <+: q ∧ ¬ pd ++ [n] <+: q ∧ reach fs 0 q = some k)) ∧
    (∃ d, resolve (Fs.rename f fs ⟨true, pd ++ [n]⟩ ⟨true, pd' ++ [n']⟩).2 false ⟨true, pd ++ [n]⟩ = .absent d n) ∧
    resolve (Fs.rename f fs ⟨true, pd ++ [n]⟩ ⟨true, pd' ++ [n']⟩).2 false ⟨true, pd' ++ [n']⟩ = .found i ∧
    (∀ q, reach fs 0 (pd' ++ [n'] ++ q) ≠ none → q = []) ∧
    (∀ k : Nat, (∀ (u : Nat) (e : List (Name × Nat)), fs.nodes[k]? ≠ some (.dir u e)) →
      (Fs.rename f fs ⟨true, pd ++ [n]⟩ ⟨true, pd' ++ [n']⟩).2.nodes[k]? = fs.nodes[k]?) ∧
    Tree (Fs.rename f fs ⟨true, pd ++ [n]⟩ ⟨true, pd' ++ [n']⟩).2 := by
  obtain ⟨-, hsys⟩ := rename_sys (rename_ok h)
  generalize (Fs.rename f fs ⟨true, pd ++ [n]⟩ ⟨true, pd' ++ [n']⟩).2 = fs' at *
  obtain ⟨d0, up, es, m, d0', up', es', m', i0, hpa, hpb, hl, hcase⟩ := sysRename_spec hsys
  obtain ⟨d, hpd, he⟩ := reach_snoc.1 ha
  have hDd : IsDir fs d := entry_dir he
  obtain ⟨rfl, rfl⟩ := parent_reach t hpa hpd hDd
  obtain ⟨rfl, rfl⟩ := parent_reach t hpb hb hD
  obtain ⟨hd, a1, a2, -, wa⟩ := parent_ok hpa
  obtain ⟨hd', b1, b2, -, wb⟩ := parent_ok hpb
  rw [entry_of hd, hl] at he
  cases he
  have hs' : es'.lookup m' ≠ some i := fun hc => hs (reach_snoc.2 ⟨d0', hb, by rw [entry_of hd', hc]⟩)
  rcases hcase with ⟨hc, -⟩ | ⟨-, rfl⟩
  · exact absurd hc hs'
  have hm := moved (i := i) (n := m) (n' := m') hd hd'
  have he : inode fs d0 m = some i := by rw [entry_of hd, hl]
  have ho := sysRename_outside t hsys hpa hpb hl hs' hpd
  have tgt := fun j hj => sysRename_target (j := j) hsys hpa hpb hl hs' hj
  have hR := moved_reach t hm he hD hpd hb ho
  have hT := moved_tree t hm he hD ⟨b1, b2⟩
  generalize reparent (setEntry (dropEntry fs d0 m) d0' m' i) i d0' = fs' at *
  simp only [List.dropLast_concat, if_true] at wa wb
  rw [walk_reach t hpd (fun _ => dir_nolink hDd)] at wa
  rw [walk_reach t hb (fun _ => dir_nolink hD)] at wb
  have la : pd.length ≤ fs.limit := by
    apply Classical.byContradiction; intro hc; rw [if_neg hc] at wa; cases wa
  have lb : pd'.length ≤ fs.limit := by
    apply Classical.byContradiction; intro hc; rw [if_neg hc] at wb; cases wb
  have below : ∀ q, reach fs 0 (pd' ++ [m'] ++ q) ≠ none → q = [] := by
    intro q hq
    rw [reach_append] at hq
    cases hj : reach fs 0 (pd' ++ [m']) with
    | none => rw [hj] at hq; exact absurd rfl hq
    | some j =>
      rw [hj] at hq
      obtain ⟨x, hx, hxj⟩ := reach_snoc.1 hj
      rw [hb] at hx
      cases hx
      rw [entry_of hd'] at hxj
      cases q with
      | nil => rfl
      | cons z q =>
        simp only [reach] at hq
        rw [tgt j hxj] at hq
        exact absurd rfl hq
  refine ⟨hR, ⟨d0, ?_⟩, ?_, below, hm.files, hT⟩
  · have hpd2 : reach fs' 0 pd = some d0 := by
      refine (hR pd d0).2 (Or.inr ⟨?_, ?_, hpd⟩)
      · rintro ⟨s, hs2⟩
        have h1 := below (s ++ [m]) (by rw [← List.append_assoc, hs2, ha]; simp)
        simp at h1
      · intro hc; have := hc.length_le; rw [List.length_append, List.length_singleton] at this; omega
    refine resolve_absent_reach hT hpd2 ((hm.dirs d0).2 hDd) ⟨a1, a2⟩ ?_ (by rw [hm.limit]; exact la)
    rw [hm.inode, if_neg, if_pos ⟨rfl, rfl⟩]
    rintro ⟨rfl, rfl⟩
    rw [entry_of hd'] at he
    exact hs' he
  · refine resolve_reach hT ((hR _ _).2 (Or.inl ⟨[], by simp, rfl⟩)) ?_
    rw [hm.limit, List.length_append, List.length_singleton]; omega

/-! ### The other calls -/

namespace Fs
/-- An edit that keeps the directories and adds at most one name, for something that is not a directory or for a
new directory. -/
theorem tree_of {fs fs' : FS} {d0 k0 : Nat} {n0 : Name} (t : Tree fs) (hc : fs'.cwd = fs.cwd)
    (hn : ∀ (k u : Nat) (e : List (Name × Nat)), fs.nodes[k]? = some (.dir u e) → ∃ e' : List (Name × Nat), fs'.nodes[k]? = some (.dir u e'))
    (hb : ∀ (k u : Nat) (e : List (Name × Nat)), fs'.nodes[k]? = some (.dir u e) →
      (∃ e', fs.nodes[k]? = some (.dir u e')) ∨ (k = fs.nodes.length ∧ u = d0))
    (hl : fs.nodes.length ≤ fs'.nodes.length) (hd : IsDir fs d0) (h0 : k0 ≠ 0) (hk0 : k0 < fs'.nodes.length)
    (hdot : n0 ≠ dot ∧ n0 ≠ dotdot) (hnew : IsDir fs' k0 → k0 = fs.nodes.length)
    (he : ∀ (x : Nat) (m : Name) (k : Nat), inode fs' x m = some k → inode fs x m = some k ∨ (x = d0 ∧ m = n0 ∧ k = k0)) :
    Tree fs' := by
  have old : ∀ k, IsDir fs k → IsDir fs' k := fun k ⟨u, e, h⟩ => by
    obtain ⟨e', h'⟩ := hn k u e h
    exact ⟨u, e', h'⟩
  have back : ∀ k, k < fs.nodes.length → IsDir fs' k → IsDir fs k := fun k hk ⟨u, e, h⟩ => by
    rcases hb k u e h with ⟨e', h'⟩ | ⟨h', -⟩
    · exact ⟨u, e', h'⟩
    · omega
  refine ⟨?_, ?_, fun x => ?_, fun k u e h => ?_, fun x y h => ?_, fun x y k h hk => ?_, fun x y y' k h h' hk => ?_, fun x y k h => ?_⟩
  · obtain ⟨es, h⟩ := t.top
    exact hn 0 0 es h
  · rw [hc]; exact old _ t.cwd
  · constructor
    · cases hx : inode fs' x dot with
      | none => rfl
      | some k =>
        rcases he x dot k hx with h | ⟨-, h, -⟩
        · rw [(t.dots x).1] at h; cases h
        · exact absurd h.symm hdot.1
    · cases hx : inode fs' x dotdot with
      | none => rfl
      | some k =>
        rcases he x dotdot k hx with h | ⟨-, h, -⟩
        · rw [(t.dots x).2] at h; cases h
        · exact absurd h.symm hdot.2
  · rcases hb k u e h with ⟨e', h⟩ | ⟨-, h⟩
    · exact old _ (t.upDir k u e' h)
    · rw [h]; exact old _ hd
  · rcases he x y 0 h with h | ⟨-, -, h⟩
    · exact t.root _ _ h
    · exact h0 h.symm
  · rcases he x y k h with h | ⟨hx, hy, hz⟩
    · obtain ⟨es, h'⟩ := t.up x y k h (back k (t.range x y k h) hk)
      exact hn k x es h'
    · subst hx hy hz
      obtain ⟨u, e, hu⟩ := hk
      rcases hb k u e hu with ⟨e', h'⟩ | ⟨-, h'⟩
      · have := lt_of_node h'
        have := hnew ⟨u, e, hu⟩
        omega
      · rw [h'] at hu; exact ⟨e, hu⟩
  · rcases he x y k h with h | ⟨hx, hy, hz⟩
    · have := t.range x y k h
      rcases he x y' k h' with h' | ⟨-, -, hz⟩
      · exact t.name x y y' k h h' (back k this hk)
      · subst hz; have := hnew hk; omega
    · rcases he x y' k h' with h' | ⟨-, hy', -⟩
      · have := t.range x y' k h'
        subst hz; have := hnew hk; omega
      · rw [hy, hy']
  · rcases he x y k h with h | ⟨-, -, h⟩
    · have := t.range x y k h; omega
    · rw [h]; exact hk0

theorem entry_none {fs : FS} {k : Nat} (h : ∀ (u : Nat) (e : List (Name × Nat)), fs.nodes[k]? ≠ some (.dir u e)) (m : Name) :
    inode fs k m = none := by
  cases hx : inode fs k m with
  | none => rfl
  | some y =>
    obtain ⟨u, e, h'⟩ := entry_dir hx
    exact absurd h' (h u e)

/-- Entries after a file system changes in one directory only. -/
theorem entry_set {fs : FS} {d up : Nat} {es es' : List (Name × Nat)} (hd : fs.nodes[d]? = some (.dir up es)) (x : Nat)
    (m : Name) : inode (fs.set d (.dir up es')) x m = if x = d then es'.lookup m else inode fs x m := by
  unfold inode
  have : (fs.set d (.dir up es')).nodes[x]? = if x = d then some (.dir up es') else fs.nodes[x]? := get_set hd
  rw [this]
  by_cases h : x = d
  · rw [if_pos h, if_pos h]
  · rw [if_neg h, if_neg h]

theorem file_tree {fs : FS} {i : Nat} {c c' : List UInt8} (t : Tree fs) (h : fs.nodes[i]? = some (.file c)) :
    Tree (fs.set i (.file c')) ∧ ∀ x m, inode (fs.set i (.file c')) x m = inode fs x m := by
  have g : ∀ k : Nat, (fs.set i (.file c')).nodes[k]? = if k = i then some (.file c') else fs.nodes[k]? := fun k => get_set h
  have e : ∀ x m, inode (fs.set i (.file c')) x m = inode fs x m := by
    intro x m
    by_cases hx : x = i
    · subst hx
      rw [entry_none (fun u e h' => by rw [g, if_pos rfl] at h'; cases h'), entry_none (fun u e h' => by rw [h] at h'; cases h')]
    · unfold inode; rw [g, if_neg hx]
  have hb : ∀ (k u : Nat) (e : List (Name × Nat)), (fs.set i (.file c')).nodes[k]? = some (.dir u e) → fs.nodes[k]? = some (.dir u e) := by
    intro k u e h'
    rw [g] at h'
    by_cases hk : k = i
    · rw [if_pos hk] at h'; cases h'
    · rw [if_neg hk] at h'; exact h'
  have hl : (fs.set i (.file c')).nodes.length = fs.nodes.length := List.length_set
  refine ⟨tree_of (d0 := fs.cwd) (k0 := i) (n0 := []) t rfl ?_ (fun k u e h' => Or.inl ⟨e, hb k u e h'⟩) (by omega) t.cwd ?_
    (by rw [hl]; exact lt_of_node h) ⟨by decide, by decide⟩ ?_ (fun x m k h' => Or.inl (by rw [e] at h'; exact h')), e⟩
  · intro k u e' h'
    refine ⟨e', ?_⟩
    rw [g, if_neg (by rintro rfl; rw [h] at h'; cases h'), h']
  · rintro rfl
    obtain ⟨es, h'⟩ := t.top
    rw [h] at h'; cases h'
  · rintro ⟨u, e', h'⟩
    rw [g, if_pos rfl] at h'; cases h'

theorem add_tree {fs : FS} {d up : Nat} {es : List (Name × Nat)} {n : Name} {node : Node} (t : Tree fs)
    (hd : fs.nodes[d]? = some (.dir up es)) (hl : es.lookup n = none) (hn : n ≠ dot ∧ n ≠ dotdot)
    (hnode : (∃ c, node = .file c) ∨ node = .dir d []) :
    Tree (addNode fs d up es n node) ∧ ∀ x m,
      inode (addNode fs d up es n node) x m = if x = d ∧ m = n then some fs.nodes.length else inode fs x m := by
  have g := addNode_get (n := n) (node := node) hd
  have hlt := lt_of_node hd
  have e : ∀ x m, inode (addNode fs d up es n node) x m = if x = d ∧ m = n then some fs.nodes.length else inode fs x m := by
    intro x m
    by_cases h1 : x = fs.nodes.length
    · subst h1
      rw [if_neg (by omega)]
      have : inode fs fs.nodes.length m = none := entry_none (fun u e h' => by
        have := lt_of_node h'; omega) m
      rw [this]
      unfold inode
      rw [g, if_pos rfl]
      rcases hnode with ⟨c, rfl⟩ | rfl <;> rfl
    · by_cases h2 : x = d
      · subst h2
        rw [entry_of hd]
        unfold inode
        rw [g, if_neg h1, if_pos rfl]
        simp only
        rw [lookup_concat]
        by_cases hm : m = n
        · subst hm; rw [hl]; simp
        · simp [hm]
      · rw [if_neg (fun h => h2 h.1)]
        unfold inode
        rw [g, if_neg h1, if_neg h2]
  have hlen : (addNode fs d up es n node).nodes.length = fs.nodes.length + 1 := by
    show (fs.nodes.set d _ ++ [node]).length = _
    simp
  refine ⟨tree_of (d0 := d) (k0 := fs.nodes.length) (n0 := n) t rfl ?_ ?_ (by omega) ⟨up, es, hd⟩ (by omega) (by omega) hn
    (fun _ => rfl) ?_, e⟩
  · intro k u e' h'
    have := lt_of_node h'
    rw [g, if_neg (by omega)]
    by_cases hk : k = d
    · subst hk; rw [hd] at h'; cases h'; rw [if_pos rfl]; exact ⟨_, rfl⟩
    · rw [if_neg hk]; exact ⟨e', h'⟩
  · intro k u e' h'
    rw [g] at h'
    by_cases h1 : k = fs.nodes.length
    · rw [if_pos h1] at h'
      rcases hnode with ⟨c, rfl⟩ | rfl
      · cases h'
      · cases h'; exact Or.inr ⟨h1, rfl⟩
    · rw [if_neg h1] at h'
      by_cases hk : k = d
      · rw [if_pos hk] at h'; cases h'; subst hk; exact Or.inl ⟨es, hd⟩
      · rw [if_neg hk] at h'; exact Or.inl ⟨e', h'⟩
  · intro x m k h'
    rw [e] at h'
    by_cases hc : x = d ∧ m = n
    · rw [if_pos hc] at h'; cases h'; exact Or.inr ⟨hc.1, hc.2, rfl⟩
    · rw [if_neg hc] at h'; exact Or.inl h'

theorem link_tree {fs : FS} {d up i : Nat} {es : List (Name × Nat)} {n : Name} (t : Tree fs)
    (hd : fs.nodes[d]? = some (.dir up es)) (hl : es.lookup n = none) (hn : n ≠ dot ∧ n ≠ dotdot)
    (hi : ∀ (u : Nat) (e : List (Name × Nat)), fs.nodes[i]? ≠ some (.dir u e)) (hr : i < fs.nodes.length) :
    Tree (fs.set d (.dir up (es ++ [(n, i)]))) ∧ ∀ x m,
      inode (fs.set d (.dir up (es ++ [(n, i)]))) x m = if x = d ∧ m = n then some i else inode fs x m := by
  have g : ∀ k : Nat, (fs.set d (.dir up (es ++ [(n, i)]))).nodes[k]? = if k = d then some (.dir up (es ++ [(n, i)])) else fs.nodes[k]? :=
    fun k => get_set hd
  have e : ∀ x m, inode (fs.set d (.dir up (es ++ [(n, i)]))) x m = if x = d ∧ m = n then some i else inode fs x m := by
    intro x m
    rw [entry_set hd]
    by_cases h2 : x = d
    · subst h2
      rw [if_pos rfl, entry_of hd, lookup_concat]
      by_cases hm : m = n
      · subst hm; rw [hl]; simp
      · simp [hm]
    · rw [if_neg h2, if_neg (fun h => h2 h.1)]
  have hlen : (fs.set d (.dir up (es ++ [(n, i)]))).nodes.length = fs.nodes.length := List.length_set
  refine ⟨tree_of (d0 := d) (k0 := i) (n0 := n) t rfl ?_ ?_ (by omega) ⟨up, es, hd⟩ ?_ (by omega) hn ?_ ?_, e⟩
  · intro k u e' h'
    rw [g]
    by_cases hk : k = d
    · subst hk; rw [hd] at h'; cases h'; rw [if_pos rfl]; exact ⟨_, rfl⟩
    · rw [if_neg hk]; exact ⟨e', h'⟩
  · intro k u e' h'
    rw [g] at h'
    by_cases hk : k = d
    · rw [if_pos hk] at h'; cases h'; subst hk; exact Or.inl ⟨es, hd⟩
    · rw [if_neg hk] at h'; exact Or.inl ⟨e', h'⟩
  · rintro rfl
    obtain ⟨es0, h0⟩ := t.top
    exact hi _ _ h0
  · rintro ⟨u, e', h'⟩
    rw [g, if_neg (by rintro rfl; exact hi _ _ hd)] at h'
    exact absurd h' (hi u e')
  · intro x m k h'
    rw [e] at h'
    by_cases hc : x = d ∧ m = n
    · rw [if_pos hc] at h'; cases h'; exact Or.inr ⟨hc.1, hc.2, rfl⟩
    · rw [if_neg hc] at h'; exact Or.inl h'

theorem drop_tree {fs : FS} {d up i : Nat} {es : List (Name × Nat)} {n : Name} (t : Tree fs)
    (hd : fs.nodes[d]? = some (.dir up es)) (hl : es.lookup n = some i)
    (hi : ∀ (u : Nat) (e : List (Name × Nat)), fs.nodes[i]? = some (.dir u e) → e = []) :
    Tree (unentry fs d up es n) ∧ (∀ m, inode fs i m = none) ∧
      ∀ x m, inode (unentry fs d up es n) x m = if x = d ∧ m = n then none else inode fs x m := by
  have g : ∀ k : Nat, (unentry fs d up es n).nodes[k]? = if k = d then some (.dir up (es.filter fun e => e.1 ≠ n)) else fs.nodes[k]? :=
    fun k => get_set hd
  have e : ∀ x m, inode (unentry fs d up es n) x m = if x = d ∧ m = n then none else inode fs x m := by
    intro x m
    unfold unentry
    rw [entry_set hd]
    by_cases h2 : x = d
    · subst h2
      rw [if_pos rfl, entry_of hd, lookup_filter]
      simp
    · rw [if_neg h2, if_neg (fun h => h2 h.1)]
  have hlen : (unentry fs d up es n).nodes.length = fs.nodes.length := List.length_set
  have hed : inode fs d n = some i := by rw [entry_of hd, hl]
  have hi0 : i ≠ 0 := by rintro rfl; exact t.root _ _ hed
  have hk : ∀ m, inode fs i m = none := by
    intro m
    unfold inode
    match h' : fs.nodes[i]? with
    | some (.dir u e) => cases hi u e h'; rfl
    | some (.file c) => rfl
    | some (.link c) => rfl
    | none => rfl
  have hbk : ∀ (k u : Nat) (e' : List (Name × Nat)), (unentry fs d up es n).nodes[k]? = some (.dir u e') → ∃ e0, fs.nodes[k]? = some (.dir u e0) := by
    intro k u e' h'
    rw [g] at h'
    by_cases hk : k = d
    · rw [if_pos hk] at h'; cases h'; subst hk; exact ⟨es, hd⟩
    · rw [if_neg hk] at h'; exact ⟨e', h'⟩
  have hnk : ∀ (k u : Nat) (e' : List (Name × Nat)), fs.nodes[k]? = some (.dir u e') → ∃ e0 : List (Name × Nat), (unentry fs d up es n).nodes[k]? = some (.dir u e0) := by
    intro k u e' h'
    rw [g]
    by_cases hk : k = d
    · subst hk; rw [hd] at h'; cases h'; rw [if_pos rfl]; exact ⟨_, rfl⟩
    · rw [if_neg hk]; exact ⟨e', h'⟩
  have sub : ∀ x m k, inode (unentry fs d up es n) x m = some k → inode fs x m = some k := by
    intro x m k h'
    rw [e] at h'
    by_cases hc : x = d ∧ m = n
    · rw [if_pos hc] at h'; cases h'
    · rw [if_neg hc] at h'; exact h'
  have dir : ∀ k, IsDir (unentry fs d up es n) k ↔ IsDir fs k :=
    fun k => ⟨fun ⟨u, e', h'⟩ => by obtain ⟨e0, h0⟩ := hbk k u e' h'; exact ⟨u, e0, h0⟩,
      fun ⟨u, e', h'⟩ => by obtain ⟨e0, h0⟩ := hnk k u e' h'; exact ⟨u, e0, h0⟩⟩
  refine ⟨⟨?_, ?_, fun x => ?_, fun k u e h => ?_, fun x y h => ?_, fun x y k h hk => ?_, fun x y y' k h h' hk => ?_,
    fun x y k h => ?_⟩, hk, e⟩
  · obtain ⟨es0, h0⟩ := t.top
    exact hnk 0 0 es0 h0
  · exact (dir _).2 t.cwd
  · rw [e, e, (t.dots x).1, (t.dots x).2]; simp
  · obtain ⟨e0, h0⟩ := hbk k u e h
    exact (dir u).2 (t.upDir k u e0 h0)
  · exact t.root x y (sub x y 0 h)
  · obtain ⟨e0, h0⟩ := t.up x y k (sub x y k h) ((dir k).1 hk)
    exact hnk k x e0 h0
  · exact t.name x y y' k (sub x y k h) (sub x y' k h') ((dir k).1 hk)
  · rw [hlen]; exact t.range x y k (sub x y k h)

/-- Resolution ends at an inode that there is. -/
theorem walk_range {fs : FS} (t : Tree fs) {f : Bool} {fuel cur i : Nat} {ns : List Name}
    (hc : cur < fs.nodes.length) (h : walk fs f fuel cur ns = .found i) : i < fs.nodes.length := by
  induction fuel generalizing cur ns with
  | zero =>
    cases ns with
    | nil => cases h; exact hc
    | cons n rest => cases h
  | succ fuel ih =>
    cases ns with
    | nil => cases h; exact hc
    | cons n rest =>
      rw [walk] at h
      match hd : fs.nodes[cur]? with
      | some (.file d) => rw [hd] at h; cases h
      | some (.link t) => rw [hd] at h; cases h
      | none => rw [hd] at h; cases h
      | some (.dir up es) =>
        rw [hd] at h
        simp only at h
        by_cases h1 : n = dot
        · rw [if_pos h1] at h; exact ih hc h
        · rw [if_neg h1] at h
          by_cases h2 : n = dotdot
          · rw [if_pos h2] at h
            obtain ⟨u, e, hu⟩ := t.upDir cur up es hd
            exact ih (lt_of_node hu) h
          · rw [if_neg h2] at h
            match hl : es.lookup n with
            | none =>
              rw [hl] at h
              simp only at h
              split at h <;> cases h
            | some k =>
              rw [hl] at h
              simp only at h
              have hk := t.range cur n k (by rw [entry_of hd, hl])
              match hn : fs.nodes[k]? with
              | some (.link p) =>
                rw [hn] at h
                simp only at h
                split at h
                · cases h; exact hk
                · refine ih ?_ h
                  split
                  · obtain ⟨e, h0⟩ := t.top; exact lt_of_node h0
                  · exact hc
              | some (.dir a b) => rw [hn] at h; exact ih hk h
              | some (.file b) => rw [hn] at h; exact ih hk h
              | none => rw [hn] at h; exact ih hk h

theorem resolve_range {fs : FS} (t : Tree fs) {f : Bool} {p : Path} {i : Nat} (h : resolve fs f p = .found i) :
    i < fs.nodes.length := by
  unfold resolve at h
  split at h
  · cases h
  · refine walk_range t ?_ h
    split
    · obtain ⟨e, h0⟩ := t.top; exact lt_of_node h0
    · obtain ⟨u, e, h0⟩ := t.cwd; exact lt_of_node h0

/-- What a call does to the names: nothing, a new name, a name less, or a move. -/
inductive Step (fs : FS) (op : Op) (fs' : FS) : Prop where
  | same (he : ∀ x m, inode fs' x m = inode fs x m)
  | add (d : Nat) (n : Name) (k : Nat) (h : inode fs d n = none)
      (he : ∀ x m, inode fs' x m = if x = d ∧ m = n then some k else inode fs x m)
  | drop (d : Nat) (n : Name) (k : Nat) (f : Option Errno) (p : Path) (ho : op = .removeFile f p ∨ op = .removeDir f p)
      (hr : resolve fs false p = .found k) (h : inode fs d n = some k) (hk : ∀ m, inode fs k m = none)
      (he : ∀ x m, inode fs' x m = if x = d ∧ m = n then none else inode fs x m)
  | move (f : Option Errno) (a b : Path) (d up : Nat) (es : List (Name × Nat)) (n : Name) (d' up' : Nat)
      (es' : List (Name × Nat)) (n' : Name) (i : Nat) (ho : op = .rename f a b) (hs : sysRename fs a b = .ok fs')
      (ha : parent fs a = .ok (d, up, es, n)) (hb : parent fs b = .ok (d', up', es', n')) (hl : es.lookup n = some i)
      (hne : es'.lookup n' ≠ some i) (hm : Moved fs fs' d n d' n' i)

theorem create_tree {f : Option Errno} {fs fs1 : FS} {p : Path} {i : Nat} {op : Op} (t : Tree fs)
    (h : create f fs p = .ok (i, fs1)) :
    (∃ c, fs1.nodes[i]? = some (.file c)) ∧ Tree fs1 ∧ Step fs op fs1 ∧ fs1.cwd = fs.cwd := by
  unfold create at h
  cases f with
  | some e => cases h
  | none =>
    simp only at h
    match hr : resolve fs true p with
    | .fail e => rw [hr] at h; cases h
    | .found j =>
      rw [hr] at h
      simp only at h
      match hj : fs.nodes[j]? with
      | some (.dir a b) => rw [hj] at h; cases h
      | some (.link t) => rw [hj] at h; cases h
      | none => rw [hj] at h; cases h
      | some (.file d) =>
        rw [hj] at h
        cases h
        obtain ⟨h1, h2⟩ := file_tree (c' := []) t hj
        refine ⟨⟨[], ?_⟩, h1, .same h2, rfl⟩
        have : (fs.set i (.file [])).nodes[i]? = if i = i then some (.file []) else fs.nodes[i]? := get_set hj
        rw [this, if_pos rfl]
    | .absent d n =>
      rw [hr] at h
      simp only at h
      obtain ⟨hp, hw⟩ := resolve_absent hr
      obtain ⟨⟨up, es, hd, hl⟩, h1, h2⟩ := walk_absent hw
      rw [hd] at h
      cases h
      obtain ⟨k1, k2⟩ := add_tree (node := .file []) t hd hl ⟨h1, h2⟩ (Or.inl ⟨[], rfl⟩)
      refine ⟨⟨[], ?_⟩, k1, .add _ _ _ (by rw [entry_of hd, hl]) k2, rfl⟩
      rw [addNode_get hd, if_pos rfl]

theorem Step.then_same {fs fs1 fs2 : FS} {op : Op} (h : Step fs op fs1) (hw : ∃ f w p c, op = .write f w p c)
    (he : ∀ x m, inode fs2 x m = inode fs1 x m) : Step fs op fs2 := by
  obtain ⟨f0, w0, p0, c0, hw⟩ := hw
  cases h with
  | same h => exact .same fun x m => (he x m).trans (h x m)
  | add d n k h1 h2 => exact .add d n k h1 fun x m => (he x m).trans (h2 x m)
  | drop d n k f p ho => rcases ho with ho | ho <;> rw [hw] at ho <;> cases ho
  | move f a b d up es n d' up' es' n' i ho => rw [hw] at ho; cases ho

theorem Op.run_tree {fs : FS} (t : Tree fs) (op : Op) :
    Tree (op.run fs) ∧ Step fs op (op.run fs) ∧ (op.run fs).cwd = fs.cwd := by
  have idle : ∀ op, Tree fs ∧ Step fs op fs ∧ fs.cwd = fs.cwd := fun op => ⟨t, .same fun _ _ => rfl, rfl⟩
  have rem : ∀ op f p, (op = .removeFile f p ∨ op = .removeDir f p) → ∀ fs', remove f fs p = .ok fs' →
      Tree fs' ∧ Step fs op fs' ∧ fs'.cwd = fs.cwd := by
    intro op f p ho fs' hm
    obtain ⟨_, d, up, es, n, i, hp, hl, hi, rfl⟩ := remove_spec hm
    obtain ⟨hd, -⟩ := parent_ok hp
    obtain ⟨h1, h2, h3⟩ := drop_tree t hd hl hi
    have hr := resolve_nofollow hp
    rw [hl] at hr
    exact ⟨h1, .drop d n i f p ho hr (by rw [entry_of hd, hl]) h2 h3, rfl⟩
  cases op with
  | createDir f p =>
    show Tree (Fs.createDir f fs p).2 ∧ Step fs _ (Fs.createDir f fs p).2 ∧ (Fs.createDir f fs p).2.cwd = _
    unfold Fs.createDir mkdir
    cases f with
    | some e => exact idle _
    | none =>
      simp only
      match hp : parent fs p with
      | .error e => cases e <;> exact idle _
      | .ok (d, up, es, n) =>
        simp only
        match hl : es.lookup n with
        | some j => exact idle _
        | none =>
          obtain ⟨hd, h1, h2, -⟩ := parent_ok hp
          obtain ⟨k1, k2⟩ := add_tree (node := .dir d []) t hd hl ⟨h1, h2⟩ (Or.inr rfl)
          exact ⟨k1, .add _ _ _ (by rw [entry_of hd, hl]) k2, rfl⟩
  | write cf wf p data =>
    show Tree (Fs.write cf wf fs p data).2 ∧ Step fs _ (Fs.write cf wf fs p data).2 ∧ (Fs.write cf wf fs p data).2.cwd = _
    unfold Fs.write
    match hc : create cf fs p with
    | .error e => exact idle _
    | .ok (i, fs1) =>
      obtain ⟨⟨c, h1⟩, h2, h3, h4⟩ := create_tree (op := .write cf wf p data) t hc
      match wf with
      | none =>
        obtain ⟨k1, k2⟩ := file_tree (c' := data) h2 h1
        exact ⟨k1, h3.then_same ⟨_, _, _, _, rfl⟩ k2, h4⟩
      | some (k, e) =>
        obtain ⟨k1, k2⟩ := file_tree (c' := data.take k) h2 h1
        exact ⟨k1, h3.then_same ⟨_, _, _, _, rfl⟩ k2, h4⟩
  | copy f a b =>
    show Tree (Fs.copy f fs a b).2 ∧ Step fs _ (Fs.copy f fs a b).2 ∧ (Fs.copy f fs a b).2.cwd = _
    unfold Fs.copy
    match hm : link f fs a b with
    | .error e => exact idle _
    | .ok fs' =>
      obtain ⟨_, i, d, up, es, n, ha, hp, hl, hi, rfl⟩ := link_spec hm
      obtain ⟨hd, h1, h2, -⟩ := parent_ok hp
      obtain ⟨k1, k2⟩ := link_tree t hd hl ⟨h1, h2⟩ hi (resolve_range t ha)
      exact ⟨k1, .add _ _ _ (by rw [entry_of hd, hl]) k2, rfl⟩
  | removeFile f p =>
    show Tree (Fs.removeFile f fs p).2 ∧ Step fs _ (Fs.removeFile f fs p).2 ∧ (Fs.removeFile f fs p).2.cwd = _
    unfold Fs.removeFile
    match hm : remove f fs p with
    | .error e => exact idle _
    | .ok fs' => exact rem _ f p (Or.inl rfl) fs' hm
  | removeDir f p =>
    show Tree (Fs.removeDir f fs p).2 ∧ Step fs _ (Fs.removeDir f fs p).2 ∧ (Fs.removeDir f fs p).2.cwd = _
    unfold Fs.removeDir
    match hm : remove f fs p with
    | .error e => exact idle _
    | .ok fs' => exact rem _ f p (Or.inr rfl) fs' hm
  | rename f a b =>
    show Tree (Fs.rename f fs a b).2 ∧ Step fs _ (Fs.rename f fs a b).2 ∧ (Fs.rename f fs a b).2.cwd = _
    unfold Fs.rename
    match hr : Os.rename f fs a b with
    | .error e => exact idle _
    | .ok fs' =>
      obtain ⟨-, hsys⟩ := rename_sys hr
      obtain ⟨d, up, es, n, d', up', es', n', i, hpa, hpb, hl, hcase⟩ := sysRename_spec hsys
      rcases hcase with ⟨_, rfl⟩ | ⟨hne, hfs⟩
      · exact idle _
      · obtain ⟨hd, -⟩ := parent_ok hpa
        obtain ⟨hd', b1, b2, -⟩ := parent_ok hpb
        have hm : Moved fs fs' d n d' n' i := by rw [hfs]; exact moved hd hd'
        exact ⟨moved_tree t hm (by rw [entry_of hd, hl]) ⟨_, _, hd'⟩ ⟨b1, b2⟩,
          .move f a b d up es n d' up' es' n' i rfl hsys hpa hpb hl hne hm, hm.cwd⟩

theorem runAll_tree {fs : FS} (t : Tree fs) (ops : List Op) : Tree (runAll fs ops) := by
  induction ops generalizing fs with
  | nil => exact t
  | cons op ops ih => exact ih (op.run_tree t).1

/-! ### Nothing gets lost -/

/-- From a directory below the root one gets to something below the root. -/
theorem walk_below {fs : FS} (t : Tree fs) {f : Bool} {fuel cur i : Nat} {ns : List Name}
    (hc : ∃ q, reach fs 0 q = some cur) (h : walk fs f fuel cur ns = .found i) : ∃ q, reach fs 0 q = some i := by
  induction fuel generalizing cur ns with
  | zero =>
    cases ns with
    | nil => cases h; exact hc
    | cons n rest => cases h
  | succ fuel ih =>
    cases ns with
    | nil => cases h; exact hc
    | cons n rest =>
      rw [walk] at h
      match hd : fs.nodes[cur]? with
      | some (.file d) => rw [hd] at h; cases h
      | some (.link t) => rw [hd] at h; cases h
      | none => rw [hd] at h; cases h
      | some (.dir up es) =>
        rw [hd] at h
        simp only at h
        by_cases h1 : n = dot
        · rw [if_pos h1] at h; exact ih hc h
        · rw [if_neg h1] at h
          by_cases h2 : n = dotdot
          · rw [if_pos h2] at h
            refine ih ?_ h
            obtain ⟨q, hq⟩ := hc
            rcases snoc_cases q with rfl | ⟨q, m, rfl⟩
            · cases hq
              obtain ⟨es0, h0⟩ := t.top
              rw [hd] at h0
              cases h0
              exact ⟨[], rfl⟩
            · obtain ⟨x, hx, hm⟩ := reach_snoc.1 hq
              obtain ⟨es0, h0⟩ := t.up x m cur hm ⟨up, es, hd⟩
              rw [hd] at h0
              cases h0
              exact ⟨q, hx⟩
          · rw [if_neg h2] at h
            match hl : es.lookup n with
            | none =>
              rw [hl] at h
              simp only at h
              split at h <;> cases h
            | some k =>
              rw [hl] at h
              simp only at h
              have hk : ∃ q, reach fs 0 q = some k := by
                obtain ⟨q, hq⟩ := hc
                exact ⟨q ++ [n], reach_snoc.2 ⟨cur, hq, by rw [entry_of hd, hl]⟩⟩
              match hn : fs.nodes[k]? with
              | some (.link p) =>
                rw [hn] at h
                simp only at h
                split at h
                · cases h; exact hk
                · refine ih ?_ h
                  split
                  · exact ⟨[], rfl⟩
                  · exact hc
              | some (.dir a b) => rw [hn] at h; exact ih hk h
              | some (.file b) => rw [hn] at h; exact ih hk h
              | none => rw [hn] at h; exact ih hk h

theorem parent_below {fs : FS} (t : Tree fs) {p : Path} {d up : Nat} {es : List (Name × Nat)} {n : Name}
    (hc : ∃ q, reach fs 0 q = some fs.cwd) (h : parent fs p = .ok (d, up, es, n)) : ∃ q, reach fs 0 q = some d := by
  obtain ⟨-, -, -, -, hw⟩ := parent_ok h
  refine walk_below t ?_ hw
  split
  · exact ⟨[], rfl⟩
  · exact hc

theorem reach_mono {fs fs' : FS} (h : ∀ x m k, inode fs x m = some k → inode fs' x m = some k) {s k : Nat} {q : List Name}
    (hq : reach fs s q = some k) : reach fs' s q = some k := by
  induction q generalizing s with
  | nil => exact hq
  | cons n q ih =>
    rw [reach] at hq ⊢
    cases hx : inode fs s n with
    | none => rw [hx] at hq; cases hq
    | some x => rw [hx] at hq; rw [h s n x hx]; exact ih hq

theorem reach_drop {fs fs' : FS} {d i : Nat} {n : Name} (he : inode fs d n = some i) (hi : ∀ m, inode fs i m = none)
    (h : ∀ x m, inode fs' x m = if x = d ∧ m = n then none else inode fs x m) {s k : Nat} {q : List Name}
    (hq : reach fs s q = some k) (hk : k ≠ i) : reach fs' s q = some k := by
  induction q generalizing s with
  | nil => exact hq
  | cons m q ih =>
    rw [reach] at hq ⊢
    cases hx : inode fs s m with
    | none => rw [hx] at hq; cases hq
    | some x =>
      rw [hx] at hq
      rw [h]
      by_cases hc : s = d ∧ m = n
      · exfalso
        obtain ⟨rfl, rfl⟩ := hc
        rw [he] at hx
        cases hx
        cases q with
        | nil => cases hq; exact hk rfl
        | cons z q => simp only [reach, hi] at hq; cases hq
      · rw [if_neg hc, hx]; exact ih hq

/-- Specification: the call takes `k` away: it removes it, or it renames something else to its name. -/
def Op.Drops (fs : FS) (k : Nat) : Op → Prop
  | .removeFile _ p => resolve fs false p = .found k
  | .removeDir _ p => resolve fs false p = .found k
  | .rename _ a b => resolve fs false b = .found k ∧ resolve fs false a ≠ .found k
  | _ => False
/-- No call of a history takes `k` away. -/
def KeepsAll (k : Nat) (fs : FS) : List Op → Prop
  | [] => True
  | op :: ops => ¬ op.Drops fs k ∧ KeepsAll k (op.run fs) ops

theorem Op.run_below {fs : FS} (t : Tree fs) (op : Op) {k : Nat} (hc : ∃ q, reach fs 0 q = some fs.cwd)
    (hk : ∃ q, reach fs 0 q = some k) (hd : ¬ op.Drops fs k) : ∃ q, reach (op.run fs) 0 q = some k := by
  obtain ⟨q, hq⟩ := hk
  obtain ⟨-, hs, -⟩ := op.run_tree t
  generalize op.run fs = fs' at *
  cases hs with
  | same he => exact ⟨q, reach_mono (fun x m k h => by rw [he, h]) hq⟩
  | add d n k0 h he =>
    refine ⟨q, reach_mono (fun x m k h' => ?_) hq⟩
    rw [he, if_neg, h']
    rintro ⟨rfl, rfl⟩
    rw [h] at h'
    cases h'
  | drop d n i f p ho hr h hi he =>
    refine ⟨q, reach_drop h hi he hq ?_⟩
    rintro rfl
    rcases ho with rfl | rfl <;> exact hd hr
  | move f a b d up es n d' up' es' n' i ho hsys ha hb hl hne hm =>
    subst ho
    obtain ⟨pd, hpd⟩ := parent_below t hc ha
    obtain ⟨pd', hpd'⟩ := parent_below t hc hb
    obtain ⟨hd1, -⟩ := parent_ok ha
    obtain ⟨hd2, -⟩ := parent_ok hb
    have he : inode fs d n = some i := by rw [entry_of hd1, hl]
    have hR := moved_reach t hm he ⟨_, _, hd2⟩ hpd hpd' (sysRename_outside t hsys ha hb hl hne hpd)
    by_cases c1 : pd ++ [n] <+: q
    · obtain ⟨r, rfl⟩ := c1
      rw [reach_append, reach_snoc.2 ⟨d, hpd, he⟩] at hq
      exact ⟨_, (hR _ k).2 (Or.inl ⟨r, rfl, hq⟩)⟩
    · by_cases c2 : pd' ++ [n'] <+: q
      · exfalso
        obtain ⟨r, rfl⟩ := c2
        rw [reach_append] at hq
        cases hj : reach fs 0 (pd' ++ [n']) with
        | none => rw [hj] at hq; cases hq
        | some j =>
          rw [hj] at hq
          obtain ⟨x, hx, hxj⟩ := reach_snoc.1 hj
          rw [hpd'] at hx
          cases hx
          rw [entry_of hd2] at hxj
          have hrb := resolve_nofollow hb
          rw [hxj] at hrb
          have hra := resolve_nofollow ha
          rw [hl] at hra
          have tgt := sysRename_target hsys ha hb hl hne hxj
          cases r with
          | nil =>
            cases hq
            refine hd ⟨hrb, ?_⟩
            rw [hra]
            intro h
            cases h
            exact hne hxj
          | cons z r => simp only [reach, tgt] at hq; cases hq
      · exact ⟨q, (hR q k).2 (Or.inr ⟨c2, c1, hq⟩)⟩
end Fs

/-- **C131**, first half.  Whatever calls a program makes and however they fail, the directories remain a tree: a
directory has exactly one name, in the directory that is its `..`, the root has none, and so there are no cycles and
no directory can be reached by two paths. -/
theorem C131_tree (fs : FS) (ops : List Op) (t : Tree fs) :
    Tree (runAll fs ops) ∧
    ∀ q q' k, reach (runAll fs ops) 0 q = some k → reach (runAll fs ops) 0 q' = some k → IsDir (runAll fs ops) k →
      q = q' := by
  have h := runAll_tree t ops
  exact ⟨h, fun q q' k h1 h2 h3 => h.onePath h1 h2 h3⟩

/-- **C131**, second half.  Nothing gets lost: what was below the root before the calls, a file or a directory, is
below the root afterwards, unless one of the calls removed it or gave its name to something else (or removed the
working directory, in which relative names could then still be made). -/
theorem C131_below (fs : FS) (ops : List Op) (k : Nat) (t : Tree fs) (hc : ∃ q, reach fs 0 q = some fs.cwd)
    (hk : ∃ q, reach fs 0 q = some k) (h1 : KeepsAll k fs ops) (h2 : KeepsAll fs.cwd fs ops) :
    ∃ q, reach (runAll fs ops) 0 q = some k := by
  induction ops generalizing fs with
  | nil => exact hk
  | cons op ops ih =>
    obtain ⟨t', -, hcwd⟩ := op.run_tree t
    refine ih (op.run fs) t' ?_ (op.run_below t hc hk h1.1) h1.2 ?_
    · rw [hcwd]; exact op.run_below t hc hc h2.1
    · rw [hcwd]; exact h2.2

/-- **C106**, for all paths, relative ones and such with symbolic links too: the full property as in
`C106_tree_partial`, but in terms of the places in the tree that the paths name.  What was below the place of a is
afterwards below the place of b and nowhere else, everything else is where it was; missing is what the paths a and b
themselves lead to afterwards (a path through the renamed directory leads somewhere else). -/
theorem C106_places_partial (f : Option Errno) (fs : FS) (a b : Path) (i : Nat) (t : Tree fs)
    (hc : ∃ q, reach fs 0 q = some fs.cwd) (h : (Fs.rename f fs a b).1 = Res.mkOk ())
    (ha : resolve fs false a = .found i) (hs : resolve fs false b ≠ .found i) :
    ∃ pa pb, reach fs 0 pa = some i ∧ pa.getLast? = a.names.getLast? ∧ pb.getLast? = b.names.getLast? ∧
      (∀ j, resolve fs false b = .found j → reach fs 0 pb = some j ∧ ∀ m, inode fs j m = none) ∧
      (∀ q k, reach (Fs.rename f fs a b).2 0 q = some k ↔
        (∃ r, q = pb ++ r ∧ reach fs i r = some k) ∨ (¬ pb <+: q ∧ ¬ pa <+: q ∧ reach fs 0 q = some k)) ∧
      ∀ k : Nat, (∀ (u : Nat) (e : List (Name × Nat)), fs.nodes[k]? ≠ some (.dir u e)) →
        (Fs.rename f fs a b).2.nodes[k]? = fs.nodes[k]? := by
  obtain ⟨-, hsys⟩ := rename_sys (rename_ok h)
  generalize (Fs.rename f fs a b).2 = fs' at *
  obtain ⟨d, up, es, n, d', up', es', n', i0, hpa, hpb, hl, hcase⟩ := sysRename_spec hsys
  obtain ⟨hd, -, -, an, -⟩ := parent_ok hpa
  obtain ⟨hd', -, -, bn, -⟩ := parent_ok hpb
  have hra := resolve_nofollow hpa
  have hrb := resolve_nofollow hpb
  rw [hl, ha] at hra
  cases hra
  have hne : es'.lookup n' ≠ some i := fun hc => hs (by rw [hrb, hc])
  rcases hcase with ⟨hc, -⟩ | ⟨-, hfs⟩
  · exact absurd hc hne
  have hm : Moved fs fs' d n d' n' i := by rw [hfs]; exact moved hd hd'
  obtain ⟨pd, hpd⟩ := parent_below t hc hpa
  obtain ⟨pd', hpd'⟩ := parent_below t hc hpb
  have he : inode fs d n = some i := by rw [entry_of hd, hl]
  refine ⟨pd ++ [n], pd' ++ [n'], reach_snoc.2 ⟨d, hpd, he⟩, ?_, ?_, fun j hj => ?_,
    moved_reach t hm he ⟨_, _, hd'⟩ hpd hpd' (sysRename_outside t hsys hpa hpb hl hne hpd), hm.files⟩
  · rw [an]; simp
  · rw [bn]; simp
  · rw [hrb] at hj
    have hxj : es'.lookup n' = some j := by
      match hx : es'.lookup n' with
      | none => rw [hx] at hj; cases hj
      | some x => rw [hx] at hj; cases hj; rfl
    exact ⟨reach_snoc.2 ⟨d', hpd', by rw [entry_of hd', hxj]⟩, sysRename_target hsys hpa hpb hl hne hxj⟩

/-- An empty file system. -/
def Fs.blank : FS where
  nodes := [.dir 0 []]
  cwd := 0
  limit := 40
  dirSize := fun _ => 4096

theorem Fs.blank_tree : Tree Fs.blank := by
  have e : ∀ d n, inode Fs.blank d n = none := by
    intro d n
    cases d <;> rfl
  have e' : ∀ d n k, inode Fs.blank d n ≠ some k := fun d n k h => by rw [e] at h; cases h
  refine ⟨⟨[], rfl⟩, ⟨0, [], rfl⟩, fun d => ⟨e _ _, e _ _⟩, fun k u es h => ?_, fun d n h => absurd h (e' _ _ _),
    fun d n k h => absurd h (e' _ _ _), fun d n n' k h => absurd h (e' _ _ _), fun d n k h => absurd h (e' _ _ _)⟩
  have h0 := lt_of_node h
  have h1 : Fs.blank.nodes.length = 1 := rfl
  have : k = 0 := by omega
  subst this
  cases h
  exact ⟨0, [], rfl⟩

/-- `/d` with a file `x` and a directory `s`, and `/e`. -/
def Fs.grown : List Op :=
  [.createDir none pd, .write none none px [7], .createDir none ⟨true, [[100], [115]]⟩, .createDir none pe]

example : Tree (runAll Fs.blank Fs.grown) := runAll_tree Fs.blank_tree _
/- Rename("/d", "/e/f"): the hypotheses of C106 hold, and `/e/f/x` is what `/d/x` was; the directory cannot be
moved into itself, nor onto another. -/
example : (Fs.rename none (runAll Fs.blank Fs.grown) ⟨true, [] ++ [[100]]⟩ ⟨true, [[101]] ++ [[102]]⟩).1 = Res.mkOk () ∧
    reach (runAll Fs.blank Fs.grown) 0 ([] ++ [[100]]) = some 1 ∧ reach (runAll Fs.blank Fs.grown) 0 [[101]] = some 4 ∧
    reach (runAll Fs.blank Fs.grown) 0 ([[101]] ++ [[102]]) = none ∧
    reach (runAll Fs.blank Fs.grown) 0 [[100], [120]] = some 2 ∧
    reach (Fs.rename none (runAll Fs.blank Fs.grown) ⟨true, [[100]]⟩ ⟨true, [[101], [102]]⟩).2 0 [[101], [102], [120]] = some 2 ∧
    (Fs.rename none (runAll Fs.blank Fs.grown) ⟨true, [[100]]⟩ ⟨true, [[100], [115], [102]]⟩).1 = Res.mkErr (some .EINVAL) ∧
    (Fs.rename none (runAll Fs.blank Fs.grown) ⟨true, [[100]]⟩ ⟨true, [[101]]⟩).1 = Res.mkErr (some .EEXIST) := by
  decide +kernel
example : IsDir (runAll Fs.blank Fs.grown) 4 := ⟨0, [], by decide +kernel⟩

/- Relative paths: Rename("e/../d", "e/f"). -/
example : (Fs.rename none (runAll Fs.blank Fs.grown) ⟨false, [[101], dotdot, [100]]⟩ ⟨false, [[101], [102]]⟩).1 = Res.mkOk () ∧
    resolve (runAll Fs.blank Fs.grown) false ⟨false, [[101], dotdot, [100]]⟩ = .found 1 ∧
    resolve (runAll Fs.blank Fs.grown) false ⟨false, [[101], [102]]⟩ ≠ .found 1 ∧
    reach (runAll Fs.blank Fs.grown) 0 [] = some (runAll Fs.blank Fs.grown).cwd := by decide +kernel

/- A history in which `/d/x` (inode 2) is kept: it ends up at `/e/f/x`. -/
example : KeepsAll 2 (runAll Fs.blank Fs.grown) [.rename none pd ⟨true, [[101], [102]]⟩, .removeDir none ⟨true, [[101], [102], [115]]⟩] ∧
    KeepsAll 0 (runAll Fs.blank Fs.grown) [.rename none pd ⟨true, [[101], [102]]⟩, .removeDir none ⟨true, [[101], [102], [115]]⟩] ∧
    (∃ q, reach (runAll Fs.blank Fs.grown) 0 q = some 2) := by
  refine ⟨⟨?_, ?_, trivial⟩, ⟨?_, ?_, trivial⟩, [[100], [120]], by decide +kernel⟩
  · rintro ⟨h, -⟩; exact absurd h (by decide +kernel)
  · intro h
    have h : resolve ((Op.rename none pd ⟨true, [[101], [102]]⟩).run (runAll Fs.blank Fs.grown)) false
      ⟨true, [[101], [102], [115]]⟩ = .found 2 := h
    exact absurd h (by decide +kernel)
  · rintro ⟨h, -⟩; exact absurd h (by decide +kernel)
  · intro h
    have h : resolve ((Op.rename none pd ⟨true, [[101], [102]]⟩).run (runAll Fs.blank Fs.grown)) false
      ⟨true, [[101], [102], [115]]⟩ = .found 0 := h
    exact absurd h (by decide +kernel)
end Gost
