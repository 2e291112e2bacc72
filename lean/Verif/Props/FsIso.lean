import Verif.Props.FsConfine
/-
Property C174: what a program does below a directory depends on what is below the directory, not on where it is, nor on
what others do elsewhere.
-/
namespace Gost
open Os Fs Spec

namespace Fs
/-- The same call with its paths below `/base`. -/
def Op.under (base : List Name) : Op → Op
  | .createDir f p => .createDir f ⟨true, base ++ p.names⟩
  | .write cf wf p data => .write cf wf ⟨true, base ++ p.names⟩ data
  | .copy f a b => .copy f ⟨true, base ++ a.names⟩ ⟨true, base ++ b.names⟩
  | .removeFile f p => .removeFile f ⟨true, base ++ p.names⟩
  | .removeDir f p => .removeDir f ⟨true, base ++ p.names⟩
  | .rename f a b => .rename f ⟨true, base ++ a.names⟩ ⟨true, base ++ b.names⟩

/-- What the calls of a history return, in order. -/
def results (fs : FS) : List Op → List (Res Errno Unit)
  | [] => []
  | op :: ops => op.result fs :: results (op.run fs) ops
end Fs

namespace Spec
/-- Below two directories, of two file systems or of one, there is the same: the same names, of the same kind, with the
same contents, and two names are names of one thing on both sides or on neither. -/
structure SameBelow (fs : FS) (a : Nat) (gs : FS) (b : Nat) : Prop where
  names : ∀ q, (reach fs a q).isSome = (reach gs b q).isSome
  file : ∀ q i j c, reach fs a q = some i → reach gs b q = some j →
    (fs.nodes[i]? = some (.file c) ↔ gs.nodes[j]? = some (.file c))
  dir : ∀ q i j, reach fs a q = some i → reach gs b q = some j → (IsDir fs i ↔ IsDir gs j)
  alias : ∀ q q' i i' j j', reach fs a q = some i → reach fs a q' = some i' → reach gs b q = some j →
    reach gs b q' = some j' → (i = i' ↔ j = j')

/-- `/base` is a directory without symbolic links in it or below it. -/
structure PlainDir (fs : FS) (base : List Name) (a : Nat) : Prop where
  tree : Tree fs
  at_ : reach fs 0 base = some a
  dir : IsDir fs a
  nolink : ∀ q k p, reach fs a q = some k → fs.nodes[k]? ≠ some (.link p)

/-- Both file systems take the path: their limits and the depths of the directories are the same, or the path is
short for both. -/
def Fits (fs : FS) (base : List Name) (gs : FS) (base' : List Name) (q : List Name) : Prop :=
  (fs.limit = gs.limit ∧ base.length = base'.length) ∨
    (base.length + q.length ≤ fs.limit ∧ base'.length + q.length ≤ gs.limit)

/-- Nothing is in or below both directories. -/
def ApartDirs (fs : FS) (a a2 : Nat) : Prop := ∀ q q' k, reach fs a q = some k → reach fs a2 q' ≠ some k
end Spec

namespace Fs
namespace Iso
variable {R : Nat → Nat → Prop}

def EntRel (R : Nat → Nat → Prop) (es es' : List (Name × Nat)) : Prop :=
  ∀ n, (es.lookup n = none ∧ es'.lookup n = none) ∨ ∃ k k', es.lookup n = some k ∧ es'.lookup n = some k' ∧ R k k'

inductive NodeRel (R : Nat → Nat → Prop) : Option Node → Option Node → Prop
  | file (c : List UInt8) : NodeRel R (some (.file c)) (some (.file c))
  | dir {u u' : Nat} {es es' : List (Name × Nat)} (h : EntRel R es es') : NodeRel R (some (.dir u es)) (some (.dir u' es'))

/-- The inodes correspond. -/
structure Iso (R : Nat → Nat → Prop) (fs gs : FS) : Prop where
  left : ∀ i j j', R i j → R i j' → j = j'
  right : ∀ i i' j, R i j → R i' j → i = i'
  node : ∀ i j, R i j → NodeRel R fs.nodes[i]? gs.nodes[j]?

theorem EntRel.nil {es es' : List (Name × Nat)} (h : EntRel R es es') : es = [] ↔ es' = [] := by
  constructor
  · rintro rfl
    cases es' with
    | nil => rfl
    | cons e es' =>
      obtain ⟨n, k⟩ := e
      rcases h n with ⟨-, h2⟩ | ⟨_, _, h1, -⟩
      · simp [List.lookup] at h2
      · simp [List.lookup] at h1
  · rintro rfl
    cases es with
    | nil => rfl
    | cons e es =>
      obtain ⟨n, k⟩ := e
      rcases h n with ⟨h2, -⟩ | ⟨_, _, -, h1, -⟩
      · simp [List.lookup] at h2
      · simp [List.lookup] at h1

theorem EntRel.filter {es es' : List (Name × Nat)} (h : EntRel R es es') (n : Name) :
    EntRel R (es.filter fun e => e.1 ≠ n) (es'.filter fun e => e.1 ≠ n) := by
  intro m
  rw [lookup_filter, lookup_filter]
  by_cases hm : m = n
  · rw [if_pos hm, if_pos hm]; exact Or.inl ⟨rfl, rfl⟩
  · rw [if_neg hm, if_neg hm]; exact h m

theorem EntRel.concat {es es' : List (Name × Nat)} (h : EntRel R es es') (n : Name) {k k' : Nat} (hk : R k k') :
    EntRel R (es ++ [(n, k)]) (es' ++ [(n, k')]) := by
  intro m
  rw [lookup_concat, lookup_concat]
  rcases h m with ⟨h1, h2⟩ | ⟨x, x', h1, h2, h3⟩
  · rw [h1, h2]
    by_cases hm : m = n
    · rw [if_pos hm, if_pos hm]; exact Or.inr ⟨k, k', rfl, rfl, hk⟩
    · rw [if_neg hm, if_neg hm]; exact Or.inl ⟨rfl, rfl⟩
  · rw [h1, h2]; exact Or.inr ⟨x, x', rfl, rfl, h3⟩

theorem EntRel.mono {R' : Nat → Nat → Prop} (hR : ∀ i j, R i j → R' i j) {es es' : List (Name × Nat)}
    (h : EntRel R es es') : EntRel R' es es' := by
  intro m
  rcases h m with h1 | ⟨x, x', h1, h2, h3⟩
  · exact Or.inl h1
  · exact Or.inr ⟨x, x', h1, h2, hR _ _ h3⟩

theorem NodeRel.mono {R' : Nat → Nat → Prop} (hR : ∀ i j, R i j → R' i j) {x y : Option Node} (h : NodeRel R x y) :
    NodeRel R' x y := by
  cases h with
  | file c => exact .file c
  | dir h => exact .dir (h.mono hR)

theorem lt_of_rel {fs gs : FS} (s : Iso R fs gs) {i j : Nat} (h : R i j) : i < fs.nodes.length ∧ j < gs.nodes.length := by
  have hn := s.node i j h
  generalize hx : fs.nodes[i]? = x at hn
  generalize hy : gs.nodes[j]? = y at hn
  cases hn <;> exact ⟨lt_of_node hx, lt_of_node hy⟩

/-- Corresponding inodes get corresponding contents. -/
theorem set_iso {fs gs : FS} (s : Iso R fs gs) {i j : Nat} (h : R i j) {x y : Node} (hxy : NodeRel R (some x) (some y)) :
    Iso R (fs.set i x) (gs.set j y) := by
  refine ⟨s.left, s.right, ?_⟩
  intro k l hkl
  obtain ⟨h1, h2⟩ := lt_of_rel s h
  show NodeRel R (fs.nodes.set i x)[k]? (gs.nodes.set j y)[l]?
  rw [get_set (List.getElem?_eq_getElem h1), get_set (List.getElem?_eq_getElem h2)]
  by_cases hk : k = i
  · have hl : l = j := s.left i l j (hk ▸ hkl) h
    rw [if_pos hk, if_pos hl]; exact hxy
  · have hl : ¬ l = j := fun e => hk (s.right k i j (e ▸ hkl) h)
    rw [if_neg hk, if_neg hl]; exact s.node k l hkl

/-- The inodes correspond, and two more. -/
def plus (R : Nat → Nat → Prop) (m m' : Nat) (i j : Nat) : Prop := R i j ∨ (i = m ∧ j = m')

theorem add_iso {fs gs : FS} (s : Iso R fs gs) {d up d' up' : Nat} {es es' : List (Name × Nat)} (h : R d d')
    (hd : fs.nodes[d]? = some (.dir up es)) (hd' : gs.nodes[d']? = some (.dir up' es')) (he : EntRel R es es')
    (n : Name) {x y : Node} (hxy : NodeRel R (some x) (some y)) :
    Iso (plus R fs.nodes.length gs.nodes.length) (addNode fs d up es n x) (addNode gs d' up' es' n y) := by
  have hR : ∀ i j, R i j → plus R fs.nodes.length gs.nodes.length i j := fun i j h => Or.inl h
  refine ⟨?_, ?_, ?_⟩
  · rintro i j j' (h1 | ⟨h1, h2⟩) (h3 | ⟨h3, h4⟩)
    · exact s.left i j j' h1 h3
    · have := (lt_of_rel s h1).1; omega
    · have := (lt_of_rel s h3).1; omega
    · omega
  · rintro i i' j (h1 | ⟨h1, h2⟩) (h3 | ⟨h3, h4⟩)
    · exact s.right i i' j h1 h3
    · have := (lt_of_rel s h1).2; omega
    · have := (lt_of_rel s h3).2; omega
    · omega
  · rintro k l hkl
    rw [addNode_get hd, addNode_get hd']
    rcases hkl with hkl | ⟨rfl, rfl⟩
    · obtain ⟨h1, h2⟩ := lt_of_rel s hkl
      rw [if_neg (Nat.ne_of_lt h1), if_neg (Nat.ne_of_lt h2)]
      by_cases hk : k = d
      · have hl : l = d' := s.left d l d' (hk ▸ hkl) h
        rw [if_pos hk, if_pos hl]
        exact .dir ((he.mono hR).concat n (Or.inr ⟨rfl, rfl⟩))
      · have hl : ¬ l = d' := fun e => hk (s.right k d d' (e ▸ hkl) h)
        rw [if_neg hk, if_neg hl]; exact (s.node k l hkl).mono hR
    · rw [if_pos rfl, if_pos rfl]; exact hxy.mono hR

/-! ### From what is under the names to the inodes, and back -/

/-- Inodes under the same name. -/
def via (fs : FS) (a : Nat) (gs : FS) (b : Nat) (i j : Nat) : Prop := ∃ q, reach fs a q = some i ∧ reach gs b q = some j

theorem via_dir {fs gs : FS} {i j : Nat} (s : Iso R fs gs) (h : R i j) {up : Nat} {es : List (Name × Nat)}
    (hi : fs.nodes[i]? = some (.dir up es)) : ∃ up' es', gs.nodes[j]? = some (.dir up' es') ∧ EntRel R es es' := by
  have hn := s.node i j h
  rw [hi] at hn
  generalize hy : gs.nodes[j]? = y at hn
  cases hn with
  | dir h => exact ⟨_, _, rfl, h⟩

theorem via_file {fs gs : FS} {i j : Nat} (s : Iso R fs gs) (h : R i j) {c : List UInt8}
    (hi : fs.nodes[i]? = some (.file c)) : gs.nodes[j]? = some (.file c) := by
  have hn := s.node i j h
  rw [hi] at hn
  generalize hy : gs.nodes[j]? = y at hn
  cases hn
  rfl

theorem inode_iso {fs gs : FS} (s : Iso R fs gs) {i j : Nat} (h : R i j) (n : Name) :
    (inode fs i n = none ∧ inode gs j n = none) ∨ ∃ k l, inode fs i n = some k ∧ inode gs j n = some l ∧ R k l := by
  have hn := s.node i j h
  unfold inode
  generalize fs.nodes[i]? = x at hn
  generalize gs.nodes[j]? = y at hn
  cases hn with
  | file c => exact Or.inl ⟨rfl, rfl⟩
  | dir h => exact h n

theorem reach_iso {fs gs : FS} (s : Iso R fs gs) {i j : Nat} (h : R i j) (q : List Name) :
    (reach fs i q = none ∧ reach gs j q = none) ∨ ∃ k l, reach fs i q = some k ∧ reach gs j q = some l ∧ R k l := by
  induction q generalizing i j with
  | nil => exact Or.inr ⟨i, j, rfl, rfl, h⟩
  | cons n q ih =>
    rw [reach, reach]
    rcases inode_iso s h n with ⟨h1, h2⟩ | ⟨k, l, h1, h2, h3⟩
    · rw [h1, h2]; exact Or.inl ⟨rfl, rfl⟩
    · rw [h1, h2]; exact ih h3

theorem same_of_iso {fs gs : FS} (s : Iso R fs gs) {a b : Nat} (h : R a b) : SameBelow fs a gs b := by
  have key : ∀ q i j, reach fs a q = some i → reach gs b q = some j → R i j := by
    intro q i j h1 h2
    rcases reach_iso s h q with ⟨h3, -⟩ | ⟨k, l, h3, h4, h5⟩
    · rw [h1] at h3; cases h3
    · rw [h1] at h3; rw [h2] at h4; cases h3; cases h4; exact h5
  refine ⟨?_, ?_, ?_, ?_⟩
  · intro q
    rcases reach_iso s h q with ⟨h3, h4⟩ | ⟨k, l, h3, h4, h5⟩ <;> rw [h3, h4] <;> rfl
  · intro q i j c h1 h2
    have hn := s.node i j (key q i j h1 h2)
    generalize fs.nodes[i]? = x at hn
    generalize gs.nodes[j]? = y at hn
    cases hn with
    | file c' => exact Iff.rfl
    | dir h => exact ⟨fun e => (by cases e), fun e => (by cases e)⟩
  · intro q i j h1 h2
    have hn := s.node i j (key q i j h1 h2)
    unfold IsDir
    generalize fs.nodes[i]? = x at hn
    generalize gs.nodes[j]? = y at hn
    cases hn with
    | file c' => exact ⟨fun ⟨u, e, h⟩ => (by cases h), fun ⟨u, e, h⟩ => (by cases h)⟩
    | dir h => exact ⟨fun _ => ⟨_, _, rfl⟩, fun _ => ⟨_, _, rfl⟩⟩
  · intro q q' i i' j j' h1 h2 h3 h4
    have k1 := key q i j h1 h3
    have k2 := key q' i' j' h2 h4
    constructor
    · rintro rfl; exact s.left i j j' k1 k2
    · rintro rfl; exact s.right i i' j k1 k2

theorem reach_some {fs : FS} {base : List Name} {a : Nat} (p : PlainDir fs base a) {q : List Name} {k : Nat}
    (h : reach fs a q = some k) : (∃ c, fs.nodes[k]? = some (.file c)) ∨ IsDir fs k := by
  have hk : k < fs.nodes.length := by
    rcases snoc_cases q with rfl | ⟨r', n, rfl⟩
    · cases h; obtain ⟨u, es, h0⟩ := p.dir; exact lt_of_node h0
    · obtain ⟨x, _, hx⟩ := reach_snoc.1 h; exact p.tree.range x n k hx
  match hn : fs.nodes[k]? with
  | some (.file c) => exact Or.inl ⟨c, rfl⟩
  | some (.dir u es) => exact Or.inr ⟨u, es, hn⟩
  | some (.link t) => exact absurd hn (p.nolink q k t h)
  | none => rw [List.getElem?_eq_none_iff] at hn; omega

theorem iso_of_same {fs gs : FS} {base : List Name} {a b : Nat} (p : PlainDir fs base a) (s : SameBelow fs a gs b) :
    Iso (via fs a gs b) fs gs := by
  refine ⟨?_, ?_, ?_⟩
  · rintro i j j' ⟨q, h1, h2⟩ ⟨q', h3, h4⟩
    exact (s.alias q q' i i j j' h1 h3 h2 h4).1 rfl
  · rintro i i' j ⟨q, h1, h2⟩ ⟨q', h3, h4⟩
    exact (s.alias q q' i i' j j h1 h3 h2 h4).2 rfl
  · rintro i j ⟨q, h1, h2⟩
    rcases reach_some p h1 with ⟨c, hc⟩ | hd
    · rw [hc, (s.file q i j c h1 h2).1 hc]; exact .file c
    · obtain ⟨u', es', hj⟩ := (s.dir q i j h1 h2).1 hd
      obtain ⟨u, es, hi⟩ := hd
      rw [hi, hj]
      refine .dir fun n => ?_
      have e1 : reach fs a (q ++ [n]) = es.lookup n := by
        rw [reach_append, h1]; simp only [reach, entry_of hi]; cases es.lookup n <;> rfl
      have e2 : reach gs b (q ++ [n]) = es'.lookup n := by
        rw [reach_append, h2]; simp only [reach, entry_of hj]; cases es'.lookup n <;> rfl
      have hs := s.names (q ++ [n])
      rw [e1, e2] at hs
      cases h3 : es.lookup n with
      | none =>
        cases h4 : es'.lookup n with
        | none => exact Or.inl ⟨rfl, rfl⟩
        | some l => rw [h3, h4] at hs; cases hs
      | some k =>
        cases h4 : es'.lookup n with
        | none => rw [h3, h4] at hs; cases hs
        | some l => exact Or.inr ⟨k, l, rfl, rfl, q ++ [n], e1.trans h3, e2.trans h4⟩

/-! ### Paths -/

inductive WalkRel (R : Nat → Nat → Prop) : Walk → Walk → Prop
  | found {i j : Nat} (h : R i j) : WalkRel R (.found i) (.found j)
  | absent {d d' : Nat} (n : Name) (h : R d d') : WalkRel R (.absent d n) (.absent d' n)
  | fail (e : Errno) : WalkRel R (.fail e) (.fail e)

theorem walk_iso {fs gs : FS} (s : Iso R fs gs) {f : Bool} {q : List Name} (hq : dotdot ∉ q) {i j : Nat} (h : R i j)
    {F G : Nat} (hF : F = G ∨ (q.length ≤ F ∧ q.length ≤ G)) : WalkRel R (walk fs f F i q) (walk gs f G j q) := by
  induction q generalizing i j F G with
  | nil => rw [walk_nil, walk_nil]; exact .found h
  | cons n q ih =>
    have hn : n ≠ dotdot := fun e => hq (by rw [e]; exact List.mem_cons_self)
    have hq' : dotdot ∉ q := fun e => hq (List.mem_cons_of_mem _ e)
    cases F with
    | zero =>
      have : G = 0 := by
        rcases hF with rfl | ⟨h1, -⟩
        · rfl
        · simp at h1
      rw [this]; exact .fail _
    | succ F =>
      cases G with
      | zero =>
        rcases hF with h1 | ⟨-, h1⟩
        · cases h1
        · simp at h1
      | succ G =>
        have hF' : F = G ∨ (q.length ≤ F ∧ q.length ≤ G) := by
          simp only [List.length_cons] at hF; omega
        have hnode := s.node i j h
        rw [walk, walk]
        generalize fs.nodes[i]? = x at hnode
        generalize gs.nodes[j]? = y at hnode
        cases hnode with
        | file c => exact .fail _
        | @dir u u' es es' he =>
          simp only [if_neg hn]
          by_cases h1 : n = dot
          · rw [if_pos h1, if_pos h1]; exact ih hq' h hF'
          · rw [if_neg h1, if_neg h1]
            rcases he n with ⟨e1, e2⟩ | ⟨k, l, e1, e2, e3⟩
            · rw [e1, e2]
              simp only
              by_cases hr : q = []
              · rw [if_pos hr, if_pos hr]; exact .absent n h
              · rw [if_neg hr, if_neg hr]; exact .fail _
            · rw [e1, e2]
              have hk := s.node k l e3
              simp only
              generalize fs.nodes[k]? = x at hk
              generalize gs.nodes[l]? = y at hk
              cases hk <;> exact ih hq' e3 hF'

/-- The way down to the directory. -/
theorem walk_down {fs : FS} (t : Tree fs) {f : Bool} {s a : Nat} {base q : List Name}
    (hb : reach fs s base = some a) (hd : IsDir fs a) (F : Nat) :
    walk fs f F s (base ++ q) = if base.length ≤ F then walk fs f (F - base.length) a q else .fail .ELOOP := by
  induction base generalizing s F with
  | nil => cases hb; simp
  | cons m base ih =>
    cases F with
    | zero => simp [walk]
    | succ F =>
      rw [reach] at hb
      match hm : inode fs s m with
      | none => rw [hm] at hb; cases hb
      | some x =>
        rw [hm] at hb
        replace hb : Spec.reach fs x base = some a := hb
        obtain ⟨up, es, hs⟩ := entry_dir hm
        have h1 : m ≠ dot := fun e => by rw [e, (t.dots s).1] at hm; cases hm
        have h2 : m ≠ dotdot := fun e => by rw [e, (t.dots s).2] at hm; cases hm
        have hx : IsDir fs x := by
          cases base with
          | nil => cases hb; exact hd
          | cons m' base =>
            rw [reach] at hb
            match hm' : inode fs x m' with
            | none => rw [hm'] at hb; cases hb
            | some y => exact entry_dir hm'
        obtain ⟨u', es', hx'⟩ := hx
        rw [List.cons_append, walk, hs]
        simp only [if_neg h1, if_neg h2]
        rw [entry_of hs] at hm
        rw [hm]
        simp only [hx']
        rw [ih hb F]
        simp only [List.length_cons, Nat.succ_le_succ_iff, Nat.add_sub_add_right]

theorem walk_both {fs gs : FS} {base base' : List Name} {a b : Nat} (p : PlainDir fs base a) (p' : PlainDir gs base' b)
    (s : Iso R fs gs) (hR : R a b) {f : Bool} {q : List Name} (hq : dotdot ∉ q) {F G : Nat}
    (h : (F = G ∧ base.length = base'.length) ∨ (base.length + q.length ≤ F ∧ base'.length + q.length ≤ G)) :
    WalkRel R (walk fs f F 0 (base ++ q)) (walk gs f G 0 (base' ++ q)) := by
  rw [walk_down p.tree p.at_ p.dir, walk_down p'.tree p'.at_ p'.dir]
  by_cases h1 : base.length ≤ F
  · rw [if_pos h1, if_pos (by omega)]
    exact walk_iso s hq hR (by omega)
  · rw [if_neg h1, if_neg (by omega)]
    exact .fail _

theorem resolve_both {fs gs : FS} {base base' : List Name} {a b : Nat} (p : PlainDir fs base a) (p' : PlainDir gs base' b)
    (s : Iso R fs gs) (hR : R a b) {f : Bool} {q : List Name} (hq : dotdot ∉ q) (h : Fits fs base gs base' q) :
    WalkRel R (resolve fs f ⟨true, base ++ q⟩) (resolve gs f ⟨true, base' ++ q⟩) := by
  unfold resolve
  simp only [Bool.true_eq_false, false_and, if_false, if_true]
  refine walk_both p p' s hR hq ?_
  unfold Fits at h
  omega

theorem parent_both {fs gs : FS} {base base' : List Name} {a b : Nat} (p : PlainDir fs base a) (p' : PlainDir gs base' b)
    (s : Iso R fs gs) (hR : R a b) {q : List Name} (hne : q ≠ []) (hq : dotdot ∉ q) (h : Fits fs base gs base' q) :
    (∃ e, parent fs ⟨true, base ++ q⟩ = .error e ∧ parent gs ⟨true, base' ++ q⟩ = .error e) ∨
    ∃ d up es d' up' es' n, parent fs ⟨true, base ++ q⟩ = .ok (d, up, es, n) ∧
      parent gs ⟨true, base' ++ q⟩ = .ok (d', up', es', n) ∧ R d d' ∧ EntRel R es es' := by
  obtain ⟨n, hn⟩ : ∃ n, q.getLast? = some n := by
    cases hl : q.getLast? with
    | none => exact absurd (List.getLast?_eq_none_iff.1 hl) hne
    | some n => exact ⟨n, rfl⟩
  have l1 : ∀ l : List Name, (l ++ q).getLast? = some n := by
    intro l; rw [List.getLast?_append, hn]; rfl
  unfold parent
  simp only [l1, List.dropLast_append_of_ne_nil hne, if_true]
  by_cases h1 : n = dot ∨ n = dotdot
  · rw [if_pos h1, if_pos h1]; exact Or.inl ⟨_, rfl, rfl⟩
  · rw [if_neg h1, if_neg h1]
    have hw : WalkRel R (walk fs true fs.limit 0 (base ++ q.dropLast)) (walk gs true gs.limit 0 (base' ++ q.dropLast)) := by
      refine walk_both p p' s hR (fun e => hq (List.dropLast_subset _ e)) ?_
      unfold Fits at h
      have : q.dropLast.length ≤ q.length := by simp
      omega
    generalize walk fs true fs.limit 0 (base ++ q.dropLast) = x at hw
    generalize walk gs true gs.limit 0 (base' ++ q.dropLast) = y at hw
    cases hw with
    | fail e => exact Or.inl ⟨e, rfl, rfl⟩
    | absent m h => exact Or.inl ⟨_, rfl, rfl⟩
    | @found i j hij =>
      simp only
      have hk := s.node i j hij
      generalize fs.nodes[i]? = x at hk
      generalize gs.nodes[j]? = y at hk
      cases hk with
      | file c => exact Or.inl ⟨_, rfl, rfl⟩
      | dir he => exact Or.inr ⟨_, _, _, _, _, _, _, rfl, rfl, hij, he⟩

/-! ### The check of Rename -/

theorem above_prefix {fs : FS} (t : Tree fs) {i : Nat} (fuel : Nat) {p : List Name} {d : Nat} (h : reach fs 0 p = some d)
    (hd : IsDir fs d) (ha : isAbove fs i fuel d = true) : ∃ p1, p1 <+: p ∧ reach fs 0 p1 = some i := by
  induction fuel generalizing p d with
  | zero =>
    simp only [isAbove, beq_iff_eq] at ha
    exact ⟨p, List.prefix_refl _, ha ▸ h⟩
  | succ fuel ih =>
    rw [isAbove, Bool.or_eq_true, beq_iff_eq] at ha
    rcases ha with ha | ha
    · exact ⟨p, List.prefix_refl _, ha ▸ h⟩
    · obtain ⟨u, es, hn⟩ := hd
      rw [hn] at ha
      simp only at ha
      rcases snoc_cases p with rfl | ⟨p', n, rfl⟩
      · cases h
        obtain ⟨es0, h0⟩ := t.top
        rw [hn] at h0
        cases h0
        exact ih rfl ⟨0, es, hn⟩ ha
      · obtain ⟨x, h1, h2⟩ := reach_snoc.1 h
        obtain ⟨es', hu⟩ := t.up x n d h2 ⟨u, es, hn⟩
        rw [hn] at hu
        cases hu
        obtain ⟨p1, h3, h4⟩ := ih h1 (entry_dir h2) ha
        exact ⟨p1, h3.trans (List.prefix_append _ _), h4⟩

theorem above_iff {fs : FS} {base : List Name} {a : Nat} (p : PlainDir fs base a) {q0 q : List Name} {i d : Nat}
    (hi : reach fs a q0 = some i) (hI : IsDir fs i) (h : reach fs a q = some d) (hd : IsDir fs d) :
    isAbove fs i fs.nodes.length d = true ↔ q0 <+: q := by
  have r1 : reach fs 0 (base ++ q0) = some i := by rw [reach_append, p.at_]; exact hi
  have r2 : reach fs 0 (base ++ q) = some d := by rw [reach_append, p.at_]; exact h
  constructor
  · intro ha
    obtain ⟨p1, h1, h2⟩ := above_prefix p.tree _ r2 hd ha
    rw [p.tree.onePath h2 r1 hI] at h1
    exact (List.prefix_append_right_inj _).1 h1
  · rintro ⟨r, rfl⟩
    rw [reach_append, hi] at h
    have := p.tree.short r2 hd
    exact isAbove_reach p.tree h hd _ (by simp at this; omega)

/-! ### The system calls -/

/-- The same error, or corresponding file systems. -/
def Out (a b : Nat) (x y : Except Errno FS) : Prop :=
  (∃ e, x = .error e ∧ y = .error e) ∨ ∃ fs gs R, x = .ok fs ∧ y = .ok gs ∧ Iso R fs gs ∧ R a b

theorem Out.err {a b : Nat} {e : Errno} : Out a b (.error e) (.error e) := Or.inl ⟨e, rfl, rfl⟩

theorem Out.ok {a b : Nat} {fs gs : FS} {R : Nat → Nat → Prop} (s : Iso R fs gs) (h : R a b) :
    Out a b (.ok fs) (.ok gs) := Or.inr ⟨fs, gs, R, rfl, rfl, s, h⟩

section
variable {fs gs : FS} {base base' : List Name} {a b : Nat} {q : List Name}

theorem unentry_iso (s : Iso R fs gs) {d up d' up' : Nat} {es es' : List (Name × Nat)} {n : Name} (h : R d d')
    (he : EntRel R es es') : Iso R (unentry fs d up es n) (unentry gs d' up' es' n) :=
  set_iso s h (.dir (he.filter n))

theorem mkdir_both (p : PlainDir fs base a) (p' : PlainDir gs base' b) (s : Iso R fs gs) (hR : R a b) (hne : q ≠ [])
    (hq : dotdot ∉ q) (hf : Fits fs base gs base' q) (f : Option Errno) :
    Out a b (mkdir f fs ⟨true, base ++ q⟩) (mkdir f gs ⟨true, base' ++ q⟩) := by
  unfold mkdir
  cases f with
  | some e => exact .err
  | none =>
    simp only
    rcases parent_both p p' s hR hne hq hf with ⟨e, h1, h2⟩ | ⟨d, up, es, d', up', es', n, h1, h2, h3, h4⟩
    · rw [h1, h2]; cases e <;> exact .err
    · rw [h1, h2]
      simp only
      rcases h4 n with ⟨e1, e2⟩ | ⟨k, l, e1, e2, e3⟩
      · rw [e1, e2]
        exact .ok (add_iso s h3 (parent_ok h1).1 (parent_ok h2).1 h4 n (.dir fun m => Or.inl ⟨rfl, rfl⟩)) (Or.inl hR)
      · rw [e1, e2]; exact .err

theorem unlink_both (p : PlainDir fs base a) (p' : PlainDir gs base' b) (s : Iso R fs gs) (hR : R a b) (hne : q ≠ [])
    (hq : dotdot ∉ q) (hf : Fits fs base gs base' q) :
    Out a b (unlink fs ⟨true, base ++ q⟩) (unlink gs ⟨true, base' ++ q⟩) := by
  unfold unlink
  rcases parent_both p p' s hR hne hq hf with ⟨e, h1, h2⟩ | ⟨d, up, es, d', up', es', n, h1, h2, h3, h4⟩
  · rw [h1, h2]; exact .err
  · rw [h1, h2]
    simp only
    rcases h4 n with ⟨e1, e2⟩ | ⟨k, l, e1, e2, e3⟩
    · rw [e1, e2]; exact .err
    · rw [e1, e2]
      have hk := s.node k l e3
      simp only
      generalize fs.nodes[k]? = x at hk
      generalize gs.nodes[l]? = y at hk
      cases hk with
      | file c => exact .ok (unentry_iso s h3 h4) hR
      | dir h => exact .err

theorem rmdir_both (p : PlainDir fs base a) (p' : PlainDir gs base' b) (s : Iso R fs gs) (hR : R a b) (hne : q ≠ [])
    (hq : dotdot ∉ q) (hf : Fits fs base gs base' q) :
    Out a b (rmdir fs ⟨true, base ++ q⟩) (rmdir gs ⟨true, base' ++ q⟩) := by
  unfold rmdir
  rcases parent_both p p' s hR hne hq hf with ⟨e, h1, h2⟩ | ⟨d, up, es, d', up', es', n, h1, h2, h3, h4⟩
  · rw [h1, h2]; exact .err
  · rw [h1, h2]
    simp only
    rcases h4 n with ⟨e1, e2⟩ | ⟨k, l, e1, e2, e3⟩
    · rw [e1, e2]; exact .err
    · rw [e1, e2]
      have hk := s.node k l e3
      simp only
      generalize fs.nodes[k]? = x at hk
      generalize gs.nodes[l]? = y at hk
      cases hk with
      | file c => exact .err
      | @dir u u' ds ds' h =>
        by_cases h0 : ds = []
        · rw [h0, h.nil.1 h0]; exact .ok (unentry_iso s h3 h4) hR
        · have h0' : ds' ≠ [] := fun e => h0 (h.nil.2 e)
          cases ds with
          | nil => exact absurd rfl h0
          | cons x ds =>
            cases ds' with
            | nil => exact absurd rfl h0'
            | cons y ds' => exact .err

theorem remove_both (p : PlainDir fs base a) (p' : PlainDir gs base' b) (s : Iso R fs gs) (hR : R a b) (hne : q ≠ [])
    (hq : dotdot ∉ q) (hf : Fits fs base gs base' q) (f : Option Errno) :
    Out a b (remove f fs ⟨true, base ++ q⟩) (remove f gs ⟨true, base' ++ q⟩) := by
  unfold remove
  cases f with
  | some e => exact .err
  | none =>
    simp only
    rcases unlink_both p p' s hR hne hq hf with ⟨e, h1, h2⟩ | ⟨fs', gs', R', h1, h2, h3, h4⟩
    · rw [h1, h2]
      simp only
      rcases rmdir_both p p' s hR hne hq hf with ⟨e', h1, h2⟩ | ⟨fs', gs', R', h1, h2, h3, h4⟩
      · rw [h1, h2]; exact .err
      · rw [h1, h2]; exact .ok h3 h4
    · rw [h1, h2]; exact .ok h3 h4

theorem link_both (p : PlainDir fs base a) (p' : PlainDir gs base' b) (s : Iso R fs gs) (hR : R a b) {q' : List Name}
    (hq : dotdot ∉ q) (hf : Fits fs base gs base' q) (hne' : q' ≠ []) (hq' : dotdot ∉ q')
    (hf' : Fits fs base gs base' q') (f : Option Errno) :
    Out a b (link f fs ⟨true, base ++ q⟩ ⟨true, base ++ q'⟩) (link f gs ⟨true, base' ++ q⟩ ⟨true, base' ++ q'⟩) := by
  unfold link
  cases f with
  | some e => exact .err
  | none =>
    simp only
    have hw := resolve_both p p' s hR (f := false) hq hf
    generalize resolve fs false ⟨true, base ++ q⟩ = x at hw
    generalize resolve gs false ⟨true, base' ++ q⟩ = y at hw
    cases hw with
    | fail e => exact .err
    | absent n h => exact .err
    | @found i j hij =>
      simp only
      rcases parent_both p p' s hR hne' hq' hf' with ⟨e, h1, h2⟩ | ⟨d, up, es, d', up', es', n, h1, h2, h3, h4⟩
      · rw [h1, h2]
        cases e <;> exact .err
      · rw [h1, h2]
        simp only
        rcases h4 n with ⟨e1, e2⟩ | ⟨k, l, e1, e2, e3⟩
        · rw [e1, e2]
          have hk := s.node i j hij
          simp only
          generalize fs.nodes[i]? = x at hk
          generalize gs.nodes[j]? = y at hk
          cases hk with
          | file c => exact .ok (set_iso s h3 (.dir (h4.concat n hij))) hR
          | dir h => exact .err
        · rw [e1, e2]; exact .err

/-- The same error, or corresponding file systems and files. -/
def FileOut (a b : Nat) (x y : Except Errno (Nat × FS)) : Prop :=
  (∃ e, x = .error e ∧ y = .error e) ∨
    ∃ i j fs gs R, x = .ok (i, fs) ∧ y = .ok (j, gs) ∧ Iso R fs gs ∧ R a b ∧ R i j

theorem create_both (p : PlainDir fs base a) (p' : PlainDir gs base' b) (s : Iso R fs gs) (hR : R a b)
    (hq : dotdot ∉ q) (hf : Fits fs base gs base' q) (f : Option Errno) :
    FileOut a b (create f fs ⟨true, base ++ q⟩) (create f gs ⟨true, base' ++ q⟩) := by
  unfold create
  cases f with
  | some e => exact Or.inl ⟨e, rfl, rfl⟩
  | none =>
    simp only
    have hw := resolve_both p p' s hR (f := true) hq hf
    generalize resolve fs true ⟨true, base ++ q⟩ = x at hw
    generalize resolve gs true ⟨true, base' ++ q⟩ = y at hw
    cases hw with
    | fail e => exact Or.inl ⟨e, rfl, rfl⟩
    | @absent d d' n h =>
      have hk := s.node d d' h
      simp only
      generalize hx : fs.nodes[d]? = x at hk
      generalize hy : gs.nodes[d']? = y at hk
      cases hk with
      | file c => exact Or.inl ⟨_, rfl, rfl⟩
      | dir he =>
        exact Or.inr ⟨_, _, _, _, _, rfl, rfl, add_iso s h hx hy he n (.file []), Or.inl hR, Or.inr ⟨rfl, rfl⟩⟩
    | @found i j h =>
      have hk := s.node i j h
      simp only
      generalize fs.nodes[i]? = x at hk
      generalize gs.nodes[j]? = y at hk
      cases hk with
      | file c => exact Or.inr ⟨_, _, _, _, _, rfl, rfl, set_iso s h (.file []), hR, h⟩
      | dir he => exact Or.inl ⟨_, rfl, rfl⟩

theorem sysRename_both (p : PlainDir fs base a) (p' : PlainDir gs base' b) (hs : SameBelow fs a gs b) {q' : List Name}
    (hne : q ≠ []) (hq : dotdot ∉ q) (hf : Fits fs base gs base' q) (hne' : q' ≠ []) (hq' : dotdot ∉ q')
    (hf' : Fits fs base gs base' q') :
    Out a b (sysRename fs ⟨true, base ++ q⟩ ⟨true, base ++ q'⟩) (sysRename gs ⟨true, base' ++ q⟩ ⟨true, base' ++ q'⟩) := by
  have s := iso_of_same p hs
  have hR : via fs a gs b a b := ⟨[], rfl, rfl⟩
  unfold sysRename
  rcases parent_both p p' s hR hne hq hf with ⟨e, h1, h2⟩ | ⟨d, up, es, d', up', es', n, h1, h2, h3, h4⟩
  · rw [h1, h2]; exact .err
  · rcases parent_both p p' s hR hne' hq' hf' with ⟨e, k1, k2⟩ | ⟨D, Up, Es, D', Up', Es', N, k1, k2, k3, k4⟩
    · rw [h1, h2, k1, k2]; exact .err
    · rw [h1, h2, k1, k2]
      simp only
      rcases h4 n with ⟨e1, e2⟩ | ⟨i, j, e1, e2, e3⟩
      · rw [e1, e2]; exact .err
      · rw [e1, e2]
        simp only
        have hsame : Es.lookup N = some i ↔ Es'.lookup N = some j := by
          rcases k4 N with ⟨f1, f2⟩ | ⟨k, l, f1, f2, f3⟩
          · rw [f1, f2]; exact ⟨fun e => (by cases e), fun e => (by cases e)⟩
          · rw [f1, f2]
            constructor
            · intro e; cases e; rw [s.left i l j f3 e3]
            · intro e; cases e; rw [s.right k i j f3 e3]
        by_cases hi : Es.lookup N = some i
        · rw [if_pos hi, if_pos (hsame.1 hi)]
          exact .ok s hR
        · rw [if_neg hi, if_neg fun e => hi (hsame.2 e)]
          obtain ⟨hd, -⟩ := parent_ok h1
          obtain ⟨hd', -⟩ := parent_ok h2
          obtain ⟨hD, -⟩ := parent_ok k1
          obtain ⟨hD', -⟩ := parent_ok k2
          have habove : IsDir fs i → IsDir gs j → isAbove fs i fs.nodes.length D = isAbove gs j gs.nodes.length D' := by
            intro x y
            obtain ⟨q0, r1, r2⟩ := e3
            obtain ⟨q1, r3, r4⟩ := k3
            rw [Bool.eq_iff_iff, above_iff p r1 x r3 ⟨_, _, hD⟩, above_iff p' r2 y r4 ⟨_, _, hD'⟩]
          have hfin : Iso (via fs a gs b) (reparent (setEntry (dropEntry fs d n) D N i) i D)
              (reparent (setEntry (dropEntry gs d' n) D' N j) j D') := by
            have s1 : Iso (via fs a gs b) (dropEntry fs d n) (dropEntry gs d' n) := by
              unfold dropEntry
              rw [hd, hd']
              exact set_iso s h3 (.dir (h4.filter n))
            have s2 : Iso (via fs a gs b) (setEntry (dropEntry fs d n) D N i) (setEntry (dropEntry gs d' n) D' N j) := by
              unfold setEntry
              have hk := s1.node D D' k3
              generalize (dropEntry fs d n).nodes[D]? = x at hk
              generalize (dropEntry gs d' n).nodes[D']? = y at hk
              cases hk with
              | file c => exact s1
              | dir he => exact set_iso s1 k3 (.dir ((he.filter N).concat N e3))
            unfold reparent
            have hk := s2.node i j e3
            generalize (setEntry (dropEntry fs d n) D N i).nodes[i]? = x at hk
            generalize (setEntry (dropEntry gs d' n) D' N j).nodes[j]? = y at hk
            cases hk with
            | file c => exact s2
            | dir he => exact set_iso s2 e3 (.dir he)
          have hk := s.node i j e3
          generalize hx : fs.nodes[i]? = x at hk
          generalize hy : gs.nodes[j]? = y at hk
          rcases k4 N with ⟨f1, f2⟩ | ⟨k, l, f1, f2, f3⟩
          · rw [f1, f2]
            cases hk with
            | file c => exact .ok hfin hR
            | dir _ =>
              simp only [Bool.true_and]
              rw [habove ⟨_, _, hx⟩ ⟨_, _, hy⟩]
              split
              · exact .err
              · exact .ok hfin hR
          · rw [f1, f2]
            have hk' := s.node k l f3
            simp only
            generalize fs.nodes[k]? = z at hk'
            generalize gs.nodes[l]? = w at hk'
            cases hk with
            | file c =>
              cases hk' with
              | file c' => exact .ok hfin hR
              | dir _ => exact .err
            | dir _ =>
              cases hk' with
              | file c' => exact .err
              | @dir u u' ds ds' he =>
                simp only [Bool.true_and, if_true]
                rw [habove ⟨_, _, hx⟩ ⟨_, _, hy⟩]
                by_cases h0 : ds = []
                · rw [if_pos h0, if_pos (he.nil.1 h0)]
                  simp only
                  split
                  · exact .err
                  · exact .ok hfin hR
                · rw [if_neg h0, if_neg fun e => h0 (he.nil.2 e)]
                  exact .err

theorem rename_both (p : PlainDir fs base a) (p' : PlainDir gs base' b) (hs : SameBelow fs a gs b) {q' : List Name}
    (hne : q ≠ []) (hq : dotdot ∉ q) (hf : Fits fs base gs base' q) (hne' : q' ≠ []) (hq' : dotdot ∉ q')
    (hf' : Fits fs base gs base' q') (f : Option Errno) :
    Out a b (Os.rename f fs ⟨true, base ++ q⟩ ⟨true, base ++ q'⟩) (Os.rename f gs ⟨true, base' ++ q⟩ ⟨true, base' ++ q'⟩) := by
  have s := iso_of_same p hs
  have hR : via fs a gs b a b := ⟨[], rfl, rfl⟩
  have hsys := sysRename_both p p' hs hne hq hf hne' hq' hf'
  unfold Os.rename
  cases f with
  | some e => exact .err
  | none =>
    simp only [lstat]
    have hw := resolve_both p p' s hR (f := false) hq' hf'
    generalize resolve fs false ⟨true, base ++ q'⟩ = x at hw
    generalize resolve gs false ⟨true, base' ++ q'⟩ = y at hw
    cases hw with
    | fail e => exact hsys
    | absent n h => exact hsys
    | @found k l hkl =>
      have hk := s.node k l hkl
      simp only
      generalize fs.nodes[k]? = x at hk
      generalize gs.nodes[l]? = y at hk
      cases hk with
      | file c => exact hsys
      | dir _ =>
        simp only
        have hw := resolve_both p p' s hR (f := false) hq hf
        generalize resolve fs false ⟨true, base ++ q⟩ = x at hw
        generalize resolve gs false ⟨true, base' ++ q⟩ = y at hw
        cases hw with
        | fail e => exact .err
        | absent n h => exact .err
        | @found i j hij =>
          simp only [Path.mk.injEq, true_and, List.append_cancel_left_eq]
          have hiff : i ≠ k ↔ j ≠ l := by
            constructor
            · rintro h rfl; exact h (s.right i k j hij hkl)
            · rintro h rfl; exact h (s.left i j l hij hkl)
          by_cases hc : q = q' ∨ i ≠ k
          · rw [if_pos hc, if_pos (hc.imp id hiff.1)]; exact .err
          · rw [if_neg hc, if_neg fun h => hc (h.imp id hiff.2)]; exact hsys

theorem inside_reach {S : Nat → Prop} {fs : FS} (h : Confine.Shut S fs) {q : List Name} {s k : Nat} (hs : S s)
    (hr : reach fs s q = some k) : S k := by
  induction q generalizing s with
  | nil => cases hr; exact hs
  | cons n q ih =>
    rw [reach] at hr
    match hm : inode fs s n with
    | none => rw [hm] at hr; cases hr
    | some x => rw [hm] at hr; exact ih (h.closed s n x hs hm) hr

theorem plain_run (p : PlainDir fs base a) (op : Op) (h : ∀ x ∈ op.paths, Below fs base a x) :
    PlainDir (op.run fs) base a := by
  obtain ⟨bs, hout⟩ := Confine.base_of p.tree p.at_ p.dir p.nolink
  have e := Confine.run_eff bs (fun k hk => Or.inr hk) op h
  refine ⟨(Op.run_tree p.tree op).1, ?_, (Op.run_dir op).1 a p.dir, ?_⟩
  · rw [Confine.reach_same e.same hout]; exact p.at_
  · exact fun q k t h => e.shut.nolink k t (inside_reach e.shut (Or.inl ⟨[], rfl⟩) h)

/-- One call. -/
theorem run_both (p : PlainDir fs base a) (p' : PlainDir gs base' b) (hs : SameBelow fs a gs b) (op : Op)
    (h : ∀ x ∈ op.paths, x.names ≠ [] ∧ dotdot ∉ x.names ∧ Fits fs base gs base' x.names) :
    (op.under base).result fs = (op.under base').result gs ∧
      SameBelow ((op.under base).run fs) a ((op.under base').run gs) b := by
  have s := iso_of_same p hs
  have hR : via fs a gs b a b := ⟨[], rfl, rfl⟩
  cases op with
  | createDir f x =>
    obtain ⟨h1, h2, h3⟩ := h x (by simp [Op.paths])
    simp only [Op.under, Op.result, Op.run, Fs.createDir]
    rcases mkdir_both p p' s hR h1 h2 h3 f with ⟨e, e1, e2⟩ | ⟨fs', gs', R', e1, e2, e3, e4⟩
    · rw [e1, e2]; exact ⟨rfl, hs⟩
    · rw [e1, e2]; exact ⟨rfl, same_of_iso e3 e4⟩
  | write cf wf x data =>
    obtain ⟨h1, h2, h3⟩ := h x (by simp [Op.paths])
    simp only [Op.under, Op.result, Op.run, Fs.write]
    rcases create_both p p' s hR h2 h3 cf with ⟨e, e1, e2⟩ | ⟨i, j, fs', gs', R', e1, e2, e3, e4, e5⟩
    · rw [e1, e2]; exact ⟨rfl, hs⟩
    · rw [e1, e2]
      cases wf with
      | none => exact ⟨rfl, same_of_iso (set_iso e3 e5 (.file data)) e4⟩
      | some ke => exact ⟨rfl, same_of_iso (set_iso e3 e5 (.file (data.take ke.1))) e4⟩
  | copy f x y =>
    obtain ⟨h1, h2, h3⟩ := h x (by simp [Op.paths])
    obtain ⟨k1, k2, k3⟩ := h y (by simp [Op.paths])
    simp only [Op.under, Op.result, Op.run, Fs.copy]
    rcases link_both p p' s hR h2 h3 k1 k2 k3 f with ⟨e, e1, e2⟩ | ⟨fs', gs', R', e1, e2, e3, e4⟩
    · rw [e1, e2]; exact ⟨rfl, hs⟩
    · rw [e1, e2]; exact ⟨rfl, same_of_iso e3 e4⟩
  | removeFile f x =>
    obtain ⟨h1, h2, h3⟩ := h x (by simp [Op.paths])
    simp only [Op.under, Op.result, Op.run, Fs.removeFile]
    rcases remove_both p p' s hR h1 h2 h3 f with ⟨e, e1, e2⟩ | ⟨fs', gs', R', e1, e2, e3, e4⟩
    · rw [e1, e2]; exact ⟨rfl, hs⟩
    · rw [e1, e2]; exact ⟨rfl, same_of_iso e3 e4⟩
  | removeDir f x =>
    obtain ⟨h1, h2, h3⟩ := h x (by simp [Op.paths])
    simp only [Op.under, Op.result, Op.run, Fs.removeDir]
    rcases remove_both p p' s hR h1 h2 h3 f with ⟨e, e1, e2⟩ | ⟨fs', gs', R', e1, e2, e3, e4⟩
    · rw [e1, e2]; exact ⟨rfl, hs⟩
    · rw [e1, e2]; exact ⟨rfl, same_of_iso e3 e4⟩
  | rename f x y =>
    obtain ⟨h1, h2, h3⟩ := h x (by simp [Op.paths])
    obtain ⟨k1, k2, k3⟩ := h y (by simp [Op.paths])
    simp only [Op.under, Op.result, Op.run, Fs.rename]
    rcases rename_both p p' hs h1 h2 h3 k1 k2 k3 f with ⟨e, e1, e2⟩ | ⟨fs', gs', R', e1, e2, e3, e4⟩
    · rw [e1, e2]; exact ⟨rfl, hs⟩
    · rw [e1, e2]; exact ⟨rfl, same_of_iso e3 e4⟩

theorem under_below (op : Op) (h : ∀ x ∈ op.paths, x.names ≠ [] ∧ dotdot ∉ x.names) :
    ∀ x ∈ (op.under base).paths, Below fs base a x := by
  have key : ∀ x ∈ op.paths, Below fs base a ⟨true, base ++ x.names⟩ :=
    fun x hx => ⟨x.names, (h x hx).1, (h x hx).2, Or.inl ⟨rfl, rfl⟩⟩
  cases op with
  | createDir f x => intro y hy; simp only [Op.under, Op.paths, List.mem_singleton] at hy; rw [hy]; exact key x (by simp [Op.paths])
  | write f g x d => intro y hy; simp only [Op.under, Op.paths, List.mem_singleton] at hy; rw [hy]; exact key x (by simp [Op.paths])
  | removeFile f x => intro y hy; simp only [Op.under, Op.paths, List.mem_singleton] at hy; rw [hy]; exact key x (by simp [Op.paths])
  | removeDir f x => intro y hy; simp only [Op.under, Op.paths, List.mem_singleton] at hy; rw [hy]; exact key x (by simp [Op.paths])
  | copy f x z =>
    intro y hy
    simp only [Op.under, Op.paths, List.mem_cons, List.not_mem_nil, or_false] at hy
    rcases hy with rfl | rfl
    · exact key x (by simp [Op.paths])
    · exact key z (by simp [Op.paths])
  | rename f x z =>
    intro y hy
    simp only [Op.under, Op.paths, List.mem_cons, List.not_mem_nil, or_false] at hy
    rcases hy with rfl | rfl
    · exact key x (by simp [Op.paths])
    · exact key z (by simp [Op.paths])

theorem reach_lt (p : PlainDir fs base a) {q : List Name} {k : Nat} (h : reach fs a q = some k) : k < fs.nodes.length := by
  rcases reach_some p h with ⟨c, h⟩ | ⟨u, es, h⟩ <;> exact lt_of_node h

/-- A call below one directory, seen from another. -/
theorem other_run {base2 : List Name} {a2 : Nat} (p : PlainDir fs base a) (p2 : PlainDir fs base2 a2) (ha : ApartDirs fs a a2)
    (op : Op) (h : ∀ x ∈ op.paths, Below fs base a x) :
    PlainDir (op.run fs) base2 a2 ∧ ApartDirs (op.run fs) a a2 ∧ (∀ q, reach (op.run fs) a2 q = reach fs a2 q) ∧
      ∀ q k, reach fs a2 q = some k → (op.run fs).nodes[k]? = fs.nodes[k]? := by
  obtain ⟨bs, hout⟩ := Confine.base_of p.tree p.at_ p.dir p.nolink
  have e := Confine.run_eff bs (fun k hk => Or.inr hk) op h
  have hno : ∀ q k, reach fs a2 q = some k → ¬ Confine.inside fs a k := by
    rintro q k hk (⟨q', hq⟩ | hl)
    · exact ha q' q k hq hk
    · have := reach_lt p2 hk; omega
  have hr : ∀ q, reach (op.run fs) a2 q = reach fs a2 q := fun q =>
    Confine.reach_same e.same fun r1 x _ _ hx => hno r1 x hx
  have hn : ∀ q k, reach fs a2 q = some k → (op.run fs).nodes[k]? = fs.nodes[k]? := fun q k hk => e.same k (hno q k hk)
  refine ⟨⟨(Op.run_tree p.tree op).1, ?_, (Op.run_dir op).1 a2 p2.dir, ?_⟩, ?_, hr, hn⟩
  · rw [Confine.reach_same e.same]
    · exact p2.at_
    · rintro r x ⟨r', rfl⟩ hne hx hin
      have h2 := p2.at_
      rw [reach_append, hx] at h2
      rcases hin with ⟨q, hq⟩ | hl
      · exact ha (q ++ r') [] a2 (by rw [reach_append, hq]; exact h2) rfl
      · have : x < fs.nodes.length := by
          rcases snoc_cases r with rfl | ⟨r'', n, rfl⟩
          · cases hx; obtain ⟨es, h0⟩ := p.tree.top; exact lt_of_node h0
          · obtain ⟨y, _, hy⟩ := reach_snoc.1 hx; exact p.tree.range y n x hy
        omega
  · intro q k t hk
    rw [hr] at hk
    rw [hn q k hk]
    exact p2.nolink q k t hk
  · intro q q' k h1 h2
    rw [hr] at h2
    exact hno q' k h2 (inside_reach e.shut (Or.inl ⟨[], rfl⟩) h1)

theorem apart_symm {fs : FS} {a a2 : Nat} (h : ApartDirs fs a a2) : ApartDirs fs a2 a := fun q q' k h1 h2 => h q' q k h2 h1

/-- Nothing has changed below one side. -/
theorem same_left {fs' : FS} (s : SameBelow fs a gs b) (hr : ∀ q, reach fs' a q = reach fs a q)
    (hn : ∀ q k, reach fs a q = some k → fs'.nodes[k]? = fs.nodes[k]?) : SameBelow fs' a gs b := by
  refine ⟨fun q => by rw [hr, s.names], ?_, ?_, ?_⟩
  · intro q i j c h1 h2
    rw [hr] at h1
    rw [hn q i h1]
    exact s.file q i j c h1 h2
  · intro q i j h1 h2
    rw [hr] at h1
    unfold IsDir
    rw [hn q i h1]
    exact s.dir q i j h1 h2
  · intro q q' i i' j j' h1 h2
    rw [hr] at h1 h2
    exact s.alias q q' i i' j j' h1 h2

theorem read_both (p : PlainDir fs base a) (p' : PlainDir gs base' b) (hs : SameBelow fs a gs b) (hq : dotdot ∉ q)
    (hf : Fits fs base gs base' q) (hd : ∀ i, resolve fs true ⟨true, base ++ q⟩ = .found i → ¬ IsDir fs i)
    (f g : Option Errno) : Fs.read f g fs ⟨true, base ++ q⟩ = Fs.read f g gs ⟨true, base' ++ q⟩ := by
  have s := iso_of_same p hs
  have hR : via fs a gs b a b := ⟨[], rfl, rfl⟩
  unfold Fs.read open_
  cases f with
  | some e => rfl
  | none =>
    simp only
    have hw := resolve_both p p' s hR (f := true) hq hf
    generalize resolve fs true ⟨true, base ++ q⟩ = x at hw hd
    generalize resolve gs true ⟨true, base' ++ q⟩ = y at hw
    cases hw with
    | fail e => rfl
    | absent n h => rfl
    | @found i j h =>
      obtain ⟨q0, h0, -⟩ := id h
      rcases reach_some p h0 with ⟨c, hc⟩ | hD
      · simp only [fileRead, size, hc, via_file s h hc]
      · exact absurd hD (hd i rfl)
end
end Iso

/-- What the calls of one program return, in a history of two: `true` marks its calls, below `/base`, the others are
below `/base2`. -/
def ownResults (base base2 : List Name) (fs : FS) : List (Bool × Op) → List (Res Errno Unit)
  | [] => []
  | (true, op) :: ops => (op.under base).result fs :: ownResults base base2 ((op.under base).run fs) ops
  | (false, op) :: ops => ownResults base base2 ((op.under base2).run fs) ops
/-- The history of both. -/
def both (base base2 : List Name) (ops : List (Bool × Op)) : List Op :=
  ops.map fun o => o.2.under (if o.1 then base else base2)
/-- The calls of the one. -/
def own (base : List Name) (ops : List (Bool × Op)) : List Op := (ops.filter (·.1)).map fun o => o.2.under base
end Fs

open Fs.Iso in
/-- C174: what a program does below a directory does not depend on where the directory is.  Let there be the same below
`/base` of one file system and below `/base'` of another, or of the same one, without symbolic links.  Then the same
calls, with their paths below the one and the other, return the same, errors included, there is again the same below
both, and every Read of a file returns the same. -/
theorem C174_location {fs gs : FS} {base base' : List Name} {a b : Nat} (p : PlainDir fs base a) (p' : PlainDir gs base' b)
    (hs : SameBelow fs a gs b) (ops : List Op)
    (h : ∀ op ∈ ops, ∀ x ∈ op.paths, x.names ≠ [] ∧ dotdot ∉ x.names ∧ Fits fs base gs base' x.names) :
    results fs (ops.map (·.under base)) = results gs (ops.map (·.under base')) ∧
    SameBelow (runAll fs (ops.map (·.under base))) a (runAll gs (ops.map (·.under base'))) b ∧
    ∀ q, dotdot ∉ q → Fits fs base gs base' q →
      (∀ i, resolve (runAll fs (ops.map (·.under base))) true ⟨true, base ++ q⟩ = .found i →
        ¬ IsDir (runAll fs (ops.map (·.under base))) i) →
      ∀ f g, Fs.read f g (runAll fs (ops.map (·.under base))) ⟨true, base ++ q⟩ =
        Fs.read f g (runAll gs (ops.map (·.under base'))) ⟨true, base' ++ q⟩ := by
  induction ops generalizing fs gs with
  | nil => exact ⟨rfl, hs, fun q h1 h2 h3 f g => read_both p p' hs h1 h2 h3 f g⟩
  | cons op ops ih =>
    have ho := h op List.mem_cons_self
    obtain ⟨h1, h2⟩ := run_both p p' hs op ho
    have q1 := plain_run p (op.under base) (under_below op fun x hx => ⟨(ho x hx).1, (ho x hx).2.1⟩)
    have q2 := plain_run p' (op.under base') (under_below op fun x hx => ⟨(ho x hx).1, (ho x hx).2.1⟩)
    have hfit : ∀ q, Fits fs base gs base' q → Fits ((op.under base).run fs) base ((op.under base').run gs) base' q := by
      intro q hq
      unfold Fits
      rw [(Op.run_dir (op.under base)).2, (Op.run_dir (op.under base')).2]
      exact hq
    obtain ⟨k1, k2, k3⟩ := ih q1 q2 h2 fun o ho' x hx => by
      obtain ⟨z1, z2, z3⟩ := h o (List.mem_cons_of_mem _ ho') x hx
      exact ⟨z1, z2, hfit _ z3⟩
    refine ⟨?_, k2, fun q z1 z2 => k3 q z1 (hfit q z2)⟩
    show _ :: _ = _ :: _
    rw [h1]
    exact congrArg _ k1

namespace Fs.Iso
theorem undisturbed {fs gs : FS} {base base2 : List Name} {a a2 : Nat} (p : PlainDir fs base a) (p2 : PlainDir fs base2 a2)
    (ha : ApartDirs fs a a2) (p' : PlainDir gs base a) (hs : SameBelow fs a gs a) (hl : fs.limit = gs.limit) (ops : List (Bool × Op))
    (h : ∀ o ∈ ops, ∀ x ∈ o.2.paths, x.names ≠ [] ∧ dotdot ∉ x.names) :
    ownResults base base2 fs ops = results gs (own base ops) ∧
    SameBelow (runAll fs (both base base2 ops)) a (runAll gs (own base ops)) a := by
  induction ops generalizing fs gs with
  | nil => exact ⟨rfl, hs⟩
  | cons o ops ih =>
    obtain ⟨m, op⟩ := o
    have ho : ∀ x ∈ op.paths, x.names ≠ [] ∧ dotdot ∉ x.names := h (m, op) List.mem_cons_self
    have hrest : ∀ o ∈ ops, ∀ x ∈ o.2.paths, x.names ≠ [] ∧ dotdot ∉ x.names := fun o h' => h o (List.mem_cons_of_mem _ h')
    cases m with
    | true =>
      obtain ⟨h1, h2⟩ := run_both p p' hs op fun x hx => ⟨(ho x hx).1, (ho x hx).2, Or.inl ⟨hl, rfl⟩⟩
      have q1 := plain_run p (op.under base) (under_below op ho)
      have q2 := plain_run p' (op.under base) (under_below op ho)
      obtain ⟨o1, o2, -, -⟩ := other_run p p2 ha (op.under base) (under_below op ho)
      obtain ⟨k1, k2⟩ := ih q1 o1 o2 q2 h2 (by
        rw [(Op.run_dir (op.under base)).2, (Op.run_dir (op.under base)).2]; exact hl) hrest
      refine ⟨?_, k2⟩
      show _ :: _ = _ :: _
      rw [h1]
      exact congrArg _ k1
    | false =>
      have q1 := plain_run p2 (op.under base2) (under_below op ho)
      obtain ⟨o1, o2, o3, o4⟩ := other_run p2 p (apart_symm ha) (op.under base2) (under_below op ho)
      exact ih o1 q1 (apart_symm o2) p' (same_left hs o3 o4) (by rw [(Op.run_dir (op.under base2)).2]; exact hl) hrest
end Fs.Iso

/-- C174: nor does it depend on what another program does elsewhere.  Two programs work below two directories that have
nothing in common, and their calls are mixed in any way.  Then the calls of each return what they return if it runs
alone, and below its directory there is in the end what there is if it runs alone. -/
theorem C174_undisturbed {fs : FS} {base base2 : List Name} {a a2 : Nat} (p : PlainDir fs base a) (p2 : PlainDir fs base2 a2)
    (ha : ApartDirs fs a a2) (ops : List (Bool × Op))
    (h : ∀ o ∈ ops, ∀ x ∈ o.2.paths, x.names ≠ [] ∧ dotdot ∉ x.names) :
    ownResults base base2 fs ops = results fs (own base ops) ∧
    SameBelow (runAll fs (both base base2 ops)) a (runAll fs (own base ops)) a :=
  Fs.Iso.undisturbed p p2 ha p (Fs.Iso.same_of_iso (R := fun i j => i = j ∧ ∃ q, reach fs a q = some i) ⟨
    (by rintro i j j' ⟨rfl, -⟩ ⟨rfl, -⟩; rfl), (by rintro i i' j ⟨rfl, -⟩ ⟨rfl, -⟩; rfl), (by
      rintro i j ⟨rfl, q, hq⟩
      rcases Fs.Iso.reach_some p hq with ⟨c, h⟩ | ⟨u, es, h⟩
      · rw [h]; exact .file c
      · rw [h]
        refine .dir fun n => ?_
        cases hl : es.lookup n with
        | none => exact Or.inl ⟨rfl, rfl⟩
        | some k => exact Or.inr ⟨k, k, rfl, rfl, rfl, q ++ [n], reach_snoc.2 ⟨i, hq, by rw [entry_of h, hl]⟩⟩)⟩
    ⟨rfl, [], rfl⟩) rfl ops h

/-- C174: in particular, a directory that has been moved by Rename is as good as the one before: below the new path
there is what was below the old one, so by `C174_location` a program does there what it would have done. -/
theorem C174_moved {f : Option Errno} {fs : FS} {pd pd' : List Name} {n n' : Name} {a d' : Nat}
    (p : PlainDir fs (pd ++ [n]) a) (h : (Fs.rename f fs ⟨true, pd ++ [n]⟩ ⟨true, pd' ++ [n']⟩).1 = Res.mkOk ())
    (hb : reach fs 0 pd' = some d') (hD : IsDir fs d') (hs : reach fs 0 (pd' ++ [n']) ≠ some a) :
    PlainDir (Fs.rename f fs ⟨true, pd ++ [n]⟩ ⟨true, pd' ++ [n']⟩).2 (pd' ++ [n']) a ∧
    SameBelow fs a (Fs.rename f fs ⟨true, pd ++ [n]⟩ ⟨true, pd' ++ [n']⟩).2 a := by
  obtain ⟨h1, -, -, -, h5, h6⟩ := C106_tree_partial f fs pd pd' n n' a d' p.tree h p.at_ hb hD hs
  have hdir : ∀ k, IsDir fs k → IsDir (Fs.rename f fs ⟨true, pd ++ [n]⟩ ⟨true, pd' ++ [n']⟩).2 k :=
    (Op.run_dir (.rename f ⟨true, pd ++ [n]⟩ ⟨true, pd' ++ [n']⟩)).1
  generalize (Fs.rename f fs ⟨true, pd ++ [n]⟩ ⟨true, pd' ++ [n']⟩).2 = fs' at *
  have hat : reach fs' 0 (pd' ++ [n']) = some a := (h1 _ _).2 (Or.inl ⟨[], by simp, rfl⟩)
  have hr : ∀ q k, reach fs' a q = some k ↔ reach fs a q = some k := by
    intro q k
    have e : reach fs' 0 (pd' ++ [n'] ++ q) = reach fs' a q := by rw [reach_append, hat]
    rw [← e, h1]
    constructor
    · rintro (⟨r, h2, h3⟩ | ⟨h2, -⟩)
      · rw [List.append_cancel_left h2]; exact h3
      · exact absurd (List.prefix_append _ _) h2
    · exact fun h2 => Or.inl ⟨q, rfl, h2⟩
  have hr' : ∀ q, reach fs' a q = reach fs a q := fun q => Option.ext (hr q)
  have hdir' : ∀ k, IsDir fs k ↔ IsDir fs' k := by
    refine fun k => ⟨hdir k, fun ⟨u, es, hk⟩ => ?_⟩
    by_cases hn : IsDir fs k
    · exact hn
    · rw [h5 k fun u e h => hn ⟨u, e, h⟩] at hk; exact ⟨u, es, hk⟩
  have hother : ∀ (k : Nat) (x : Node), (∀ u es, x ≠ Node.dir u es) → (fs.nodes[k]? = some x ↔ fs'.nodes[k]? = some x) := by
    intro k x hx
    by_cases hn : IsDir fs k
    · obtain ⟨u, es, hk⟩ := hn
      obtain ⟨u', es', hk'⟩ := (hdir' k).1 ⟨u, es, hk⟩
      rw [hk, hk']
      exact ⟨fun e => absurd (Option.some.inj e).symm (hx u es), fun e => absurd (Option.some.inj e).symm (hx u' es')⟩
    · rw [h5 k fun u e h => hn ⟨u, e, h⟩]
  refine ⟨⟨h6, hat, (hdir' a).1 p.dir, ?_⟩, ⟨fun q => by rw [hr'], ?_, ?_, ?_⟩⟩
  · intro q k t hk he
    exact p.nolink q k t ((hr q k).1 hk) ((hother k _ (fun u es e => by cases e)).2 he)
  · intro q i j c g1 g2
    rw [hr', g1] at g2
    cases g2
    exact hother i _ (fun u es e => by cases e)
  · intro q i j g1 g2
    rw [hr', g1] at g2
    cases g2
    exact hdir' i
  · intro q q' i i' j j' g1 g2 g3 g4
    rw [hr', g1] at g3
    rw [hr', g2] at g4
    cases g3; cases g4
    exact Iff.rfl

/-! Concrete case: `/d` and `/e` of `Fs.twoDirs`. -/
theorem Fs.twoDirs_e : PlainDir Fs.twoDirs [[101]] 4 ∧ ApartDirs Fs.twoDirs 1 4 := by
  have n1 : Fs.twoDirs.nodes[1]? = some (.dir 0 [([120], 2), ([115], 3)]) := by decide +kernel
  have n2 : Fs.twoDirs.nodes[2]? = some (.file [7]) := by decide +kernel
  have n3 : Fs.twoDirs.nodes[3]? = some (.dir 1 []) := by decide +kernel
  have n4 : Fs.twoDirs.nodes[4]? = some (.dir 0 [([121], 5)]) := by decide +kernel
  have n5 : Fs.twoDirs.nodes[5]? = some (.file [9]) := by decide +kernel
  have s1 : Fs.Confine.Shut (fun k => k = 1 ∨ k = 2 ∨ k = 3) Fs.twoDirs := by
    refine ⟨?_, ?_⟩
    · rintro i n k (rfl | rfl | rfl) h
      · rw [entry_of n1] at h
        simp only [List.lookup] at h
        repeat' split at h
        all_goals cases h
        all_goals simp
      · simp [inode, n2] at h
      · simp [inode, n3] at h
    · rintro i p (rfl | rfl | rfl) h
      · rw [n1] at h; cases h
      · rw [n2] at h; cases h
      · rw [n3] at h; cases h
  have s4 : Fs.Confine.Shut (fun k => k = 4 ∨ k = 5) Fs.twoDirs := by
    refine ⟨?_, ?_⟩
    · rintro i n k (rfl | rfl) h
      · rw [entry_of n4] at h
        simp only [List.lookup] at h
        repeat' split at h
        all_goals cases h
        all_goals simp
      · simp [inode, n5] at h
    · rintro i p (rfl | rfl) h
      · rw [n4] at h; cases h
      · rw [n5] at h; cases h
  refine ⟨⟨Fs.twoDirs_hyps.1, by decide +kernel, ⟨_, _, n4⟩, fun q k p h => ?_⟩, fun q q' k h1 h2 => ?_⟩
  · exact s4.nolink k p (Fs.Iso.inside_reach s4 (Or.inl rfl) h)
  · have k1 := Fs.Iso.inside_reach s1 (Or.inl rfl) h1
    have k2 := Fs.Iso.inside_reach s4 (Or.inl rfl) h2
    omega

/- Two programs that both make `n`, move it to `m` and try to make a directory `m`. -/
def Fs.mixed : List (Bool × Op) :=
  [(true, .write none none ⟨false, [[110]]⟩ [1]), (false, .write none none ⟨false, [[110]]⟩ [2]),
   (false, .rename none ⟨false, [[110]]⟩ ⟨false, [[109]]⟩), (true, .rename none ⟨false, [[110]]⟩ ⟨false, [[109]]⟩),
   (true, .createDir none ⟨false, [[109]]⟩), (false, .removeFile none ⟨false, [[109]]⟩)]

example : PlainDir Fs.twoDirs [[100]] 1 := ⟨Fs.twoDirs_hyps.1, Fs.twoDirs_hyps.2.1, Fs.twoDirs_hyps.2.2.1, Fs.twoDirs_hyps.2.2.2.1⟩
example : (∀ o ∈ Fs.mixed, ∀ x ∈ o.2.paths, x.names ≠ [] ∧ dotdot ∉ x.names) ∧
    ownResults [[100]] [[101]] Fs.twoDirs Fs.mixed = [Res.mkOk (), Res.mkOk (), Res.mkErr (some .EEXIST)] ∧
    Fs.read none none (runAll Fs.twoDirs (Fs.both [[100]] [[101]] Fs.mixed)) ⟨true, [[100], [109]]⟩ = Res.mkOk [1] ∧
    Fs.read none none (runAll Fs.twoDirs (Fs.both [[100]] [[101]] Fs.mixed)) ⟨true, [[101], [109]]⟩ = Res.mkErr (some .ENOENT) := by
  refine ⟨?_, by decide +kernel, by decide +kernel, by decide +kernel⟩
  intro o ho x hx
  simp only [Fs.mixed, List.mem_cons, List.not_mem_nil, or_false] at ho
  rcases ho with rfl | rfl | rfl | rfl | rfl | rfl <;>
    simp only [Op.paths, List.mem_cons, List.not_mem_nil, or_false] at hx
  all_goals first
    | (rcases hx with rfl | rfl <;> exact ⟨by decide, by decide⟩)
    | (rw [hx]; exact ⟨by decide, by decide⟩)
/- Rename("/d", "/e/f") meets the hypotheses of `C174_moved`, and the program of `Fs.mixed` does there what it does in
`/d`. -/
example : (Fs.rename none Fs.twoDirs ⟨true, [] ++ [[100]]⟩ ⟨true, [[101]] ++ [[102]]⟩).1 = Res.mkOk () ∧
    reach Fs.twoDirs 0 [[101]] = some 4 ∧ reach Fs.twoDirs 0 ([[101]] ++ [[102]]) ≠ some 1 ∧
    results (Fs.rename none Fs.twoDirs ⟨true, [[100]]⟩ ⟨true, [[101], [102]]⟩).2 (own [[101], [102]] Fs.mixed) =
      results Fs.twoDirs (own [[100]] Fs.mixed) := by decide +kernel
/- If the directories have a file in common the programs notice each other. -/
example : Fs.read none none (runAll Fs.twoDirs [.copy none ⟨true, [[100], [120]]⟩ ⟨true, [[101], [122]]⟩,
    .write none none ⟨true, [[101], [122]]⟩ [3]]) ⟨true, [[100], [120]]⟩ = Res.mkOk [3] := by decide +kernel
end Gost
