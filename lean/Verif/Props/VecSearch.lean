import Verif.Props.Vec
/-
Properties C51 - C55: binary search, sorting, iterators, comparison and cloning of vectors.
-/
namespace Gost
open Spec

variable {σ α : Type}

/-! ### C51 -/

/-- The comparator splits the list into a part where it says Less, a part where it says Equal and a
part where it says Greater. -/
def Spec.Partitioned (c : α → Ordering) (l : List α) : Prop :=
  l.Pairwise fun a b => (c b = .lt → c a = .lt) ∧ (c a = .gt → c b = .gt)

theorem Vec.binarySearchLoop_pure (c : α → Ordering) (data : List α) (hp : Partitioned c data)
    (low high : Int) (h0 : 0 ≤ low) (h1 : high < data.length)
    (hl : ∀ (i : Nat) (h : i < data.length), (i : Int) < low → c data[i] = .lt)
    (hh : ∀ (i : Nat) (h : i < data.length), high < (i : Int) → c data[i] = .gt) (s : σ) :
    ∃ r, Vec.binarySearchLoop (fun a => (pure (c a) : Eff σ Ordering)) data low high s = (.ok r, s) ∧
      match r.value with
      | none => ∀ a ∈ data, c a ≠ .eq
      | some i => ∃ h : i < data.length, c data[i] = .eq := by
  have hpair := List.pairwise_iff_getElem.1 hp
  unfold Vec.binarySearchLoop
  split
  · next hle =>
    have hm0 : 0 ≤ (low + high) / 2 := by omega
    have hm1 : (low + high) / 2 ≤ high := by omega
    have hm2 : low ≤ (low + high) / 2 := by omega
    have hmn : ((low + high) / 2).toNat < data.length := by omega
    simp only [index_lt hmn, Eff.lift_ok, Eff.pure_bind]
    cases hc : c data[((low + high) / 2).toNat] with
    | lt =>
      refine Vec.binarySearchLoop_pure c data hp _ _ (by omega) h1 ?_ hh s
      intro i hi hlt
      rcases Nat.lt_or_ge i ((low + high) / 2).toNat with hx | hx
      · exact (hpair i _ hi hmn hx).1 hc
      · have : i = ((low + high) / 2).toNat := by omega
        subst this; exact hc
    | gt =>
      refine Vec.binarySearchLoop_pure c data hp _ _ h0 (by omega) hl ?_ s
      intro i hi hlt
      rcases Nat.lt_or_ge ((low + high) / 2).toNat i with hx | hx
      · exact (hpair _ i hmn hi hx).2 hc
      · have : i = ((low + high) / 2).toNat := by omega
        subst this; exact hc
    | eq => exact ⟨_, rfl, hmn, hc⟩
  · next hgt =>
    refine ⟨_, rfl, ?_⟩
    intro a ha he
    obtain ⟨i, hi, rfl⟩ := List.getElem_of_mem ha
    rcases Int.lt_or_le (i : Int) low with hx | hx
    · rw [hl i hi hx] at he; cases he
    · rw [hh i hi (by omega)] at he; cases he
termination_by (high - low + 1).toNat
decreasing_by all_goals omega

/-- C51: on a vector that the comparator partitions, BinarySearchBy finds an element for which it says
Equal if there is one, and otherwise returns None.  (That it always terminates is part of the model's
definition being accepted.) -/
theorem C51_binarySearchBy (v : Vec α) (c : α → Ordering) (hp : Partitioned c v.data) (s : σ) :
    ∃ r, v.binarySearchBy (fun a => (pure (c a) : Eff σ Ordering)) s = (.ok r, s) ∧
      (r.isSome = true ↔ ∃ a ∈ v.data, c a = .eq) ∧
      ∀ i, r.value = some i → ∃ h : i < v.len, c v.data[i] = .eq := by
  obtain ⟨r, h1, h2⟩ := Vec.binarySearchLoop_pure c v.data hp 0 ((v.data.length : Int) - 1)
    (by omega) (by omega) (by intros; omega) (by intros; omega) s
  refine ⟨r, h1, ?_⟩
  obtain ⟨_ | i⟩ := r
  · simp only at h2
    refine ⟨by simpa [Opt.isSome] using h2, by simp⟩
  · simp only at h2
    obtain ⟨h, he⟩ := h2
    refine ⟨by simp only [Opt.isSome, true_iff]; exact ⟨_, List.getElem_mem h, he⟩, ?_⟩
    rintro j ⟨⟩
    exact ⟨h, he⟩

/-- C51: BinarySearch on a vector sorted by a lawful Cmp. -/
theorem C51_binarySearch (v : Vec α) (cmp : α → α → Ordering) (eq : α → α → Bool)
    (hc : LawfulOrd cmp eq) (hs : v.data.Pairwise fun a b => cmp a b ≠ .gt) (x : α) :
    ∃ r, v.binarySearch (some cmp) x = .ok r ∧
      (r.isSome = true ↔ ∃ a ∈ v.data, eq a x = true) ∧
      ∀ i, r.value = some i → ∃ h : i < v.len, eq v.data[i] x = true := by
  have hp : Partitioned (fun a => cmp a x) v.data := by
    refine hs.imp ?_
    intro a b hab
    simp only
    constructor
    · intro hb
      cases h : cmp a x with
      | lt => rfl
      | eq =>
        exfalso
        have h1 : cmp x a ≠ .gt := by rw [hc.swap a x, h]; decide
        have h2 := hc.trans _ _ _ h1 hab
        rw [hc.swap b x, hb] at h2; exact h2 rfl
      | gt =>
        exfalso
        exact hc.trans a b x hab (by rw [hb]; decide) h
    · intro ha
      cases h : cmp b x with
      | gt => rfl
      | eq => exact absurd ha (hc.trans a b x hab (by rw [h]; decide))
      | lt => exact absurd ha (hc.trans a b x hab (by rw [h]; decide))
  obtain ⟨r, h1, h2, h3⟩ := C51_binarySearchBy v (fun a => cmp a x) hp ()
  refine ⟨r, ?_, ?_, ?_⟩
  · unfold Vec.binarySearch
    unfold Vec.binarySearchBy at h1
    rw [h1]
  · simpa [hc.eq_iff] using h2
  · simpa [hc.eq_iff] using h3

/-- C51: whatever the vector and the callback, sorted or not, BinarySearchBy accesses no element out of
range: it can only panic if the callback panics, and an index it returns is in range. -/
theorem C51_binarySearchBy_inRange (f : α → Eff σ Ordering) (data : List α) (low high : Int)
    (h0 : 0 ≤ low) (h1 : high < data.length) (hf : ∀ a s, ∃ o s', f a s = (.ok o, s')) (s : σ) :
    ∃ r s', Vec.binarySearchLoop f data low high s = (.ok r, s') ∧
      ∀ i, r.value = some i → i < data.length := by
  unfold Vec.binarySearchLoop
  split
  · next hle =>
    have hm0 : 0 ≤ (low + high) / 2 := by omega
    have hm1 : (low + high) / 2 ≤ high := by omega
    have hm2 : low ≤ (low + high) / 2 := by omega
    have hmn : ((low + high) / 2).toNat < data.length := by omega
    simp only [index_lt hmn, Eff.lift_ok, Eff.pure_bind]
    obtain ⟨o, s', ho⟩ := hf data[((low + high) / 2).toNat] s
    rw [Eff.bind_run, ho]
    cases o with
    | lt => exact C51_binarySearchBy_inRange f data _ _ (by omega) h1 hf s'
    | gt => exact C51_binarySearchBy_inRange f data _ _ h0 (by omega) hf s'
    | eq => exact ⟨_, _, rfl, by rintro i ⟨⟩; exact hmn⟩
  · exact ⟨_, _, rfl, by rintro i ⟨⟩⟩
termination_by (high - low + 1).toNat
decreasing_by all_goals omega

example : Partitioned (fun a : Nat => compare a 4) [1, 3, 4, 4, 9] ∧
    ([1, 3, 4, 4, 9] : List Nat).Pairwise (fun a b => compare a b ≠ .gt) := by
  unfold Partitioned; decide

/-! ### C52 -/

theorem less_strictWeak (cmp : α → α → Ordering) (eq : α → α → Bool) (hc : LawfulOrd cmp eq) :
    StrictWeak (Vec.less cmp) where
  irrefl a := by
    have := hc.swap a a
    unfold Vec.less
    cases h : cmp a a <;> rw [h] at this <;> simp_all [Ordering.swap]
  trans a b c h1 h2 := by
    simp only [Vec.less, beq_iff_eq] at *
    cases h : cmp a c with
    | lt => rfl
    | gt => exact absurd h (hc.trans a b c (by rw [h1]; decide) (by rw [h2]; decide))
    | eq =>
      exfalso
      have h3 : cmp c a ≠ .gt := by rw [hc.swap a c, h]; decide
      have h4 := hc.trans b c a (by rw [h2]; decide) h3
      rw [hc.swap a b, h1] at h4
      exact h4 rfl
  cotrans a b c h := by
    simp only [Vec.less, beq_iff_eq] at *
    cases h1 : cmp a b with
    | lt => exact .inl rfl
    | _ =>
      right
      cases h2 : cmp b c with
      | lt => rfl
      | _ =>
        exfalso
        have h3 : cmp b a ≠ .gt := by rw [hc.swap a b, h1]; decide
        have h4 : cmp c b ≠ .gt := by rw [hc.swap b c, h2]; decide
        have h5 := hc.trans c b a h4 h3
        rw [hc.swap a c, h] at h5
        exact h5 rfl

/-- The elements that compare Equal to `x`. -/
def Spec.equalTo (cmp : α → α → Ordering) (x : α) (l : List α) : List α := l.filter fun a => cmp a x == .eq

theorem equal_filter (cmp : α → α → Ordering) (eq : α → α → Bool) (hc : LawfulOrd cmp eq) (x : α)
    (l : List α) :
    l.filter (fun a => !Vec.less cmp a x && !Vec.less cmp x a) = Spec.equalTo cmp x l := by
  unfold Spec.equalTo
  congr 1
  funext a
  have := hc.swap a x
  unfold Vec.less
  cases h : cmp a x <;> rw [h] at this <;> rw [this] <;> rfl

theorem less_sorted (cmp : α → α → Ordering) (eq : α → α → Bool) (hc : LawfulOrd cmp eq) (l : List α)
    (h : l.Pairwise fun a b => Vec.less cmp b a = false) : l.Pairwise fun a b => cmp a b ≠ .gt := by
  refine h.imp ?_
  intro a b hab hgt
  have := hc.swap a b
  rw [hgt] at this
  simp [Vec.less, this, Ordering.swap] at hab

/-- C52: with a lawful comparator, Sort and SortBy permute the elements, sort them and keep the order
of equal elements; SortUnstable and SortUnstableBy permute and sort.  Capacity is unchanged. -/
theorem C52_vec_sort (S : SortLib) (v : Vec α) (cmp : α → α → Ordering) (eq : α → α → Bool)
    (hc : LawfulOrd cmp eq) :
    (∃ v', v.sort S (some cmp) = .ok v' ∧ v.sortBy S cmp = v' ∧ v'.data.Perm v.data ∧
      v'.data.Pairwise (fun a b => cmp a b ≠ .gt) ∧ v'.cap = v.cap ∧
      ∀ x, Spec.equalTo cmp x v'.data = Spec.equalTo cmp x v.data) ∧
    (∃ v', v.sortUnstable S (some cmp) = .ok v' ∧ v.sortUnstableBy S cmp = v' ∧
      v'.data.Perm v.data ∧ v'.data.Pairwise (fun a b => cmp a b ≠ .gt) ∧ v'.cap = v.cap) := by
  have hw := less_strictWeak cmp eq hc
  refine ⟨⟨_, rfl, rfl, S.stable_perm _ _, less_sorted cmp eq hc _ (S.stable_sorted _ _ hw), rfl, ?_⟩,
    ⟨_, rfl, rfl, S.unstable_perm _ _, less_sorted cmp eq hc _ (S.unstable_sorted _ _ hw), rfl⟩⟩
  intro x
  have := S.stable_stable (Vec.less cmp) v.data hw x
  rwa [equal_filter cmp eq hc, equal_filter cmp eq hc] at this

/-- C52: two stable sorts with the same comparator give the same vector: the contract leaves no freedom,
so Sort is idempotent and does nothing on a sorted vector. -/
theorem C52_vec_sort_unique (S : SortLib) (v : Vec α) (cmp : α → α → Ordering) (eq : α → α → Bool)
    (hc : LawfulOrd cmp eq) (l : List α) (hs : l.Pairwise fun a b => cmp a b ≠ .gt)
    (he : ∀ x, Spec.equalTo cmp x l = Spec.equalTo cmp x v.data) :
    (v.sortBy S cmp).data = l := by
  have hw := less_strictWeak cmp eq hc
  have hsorted := less_sorted cmp eq hc _ (S.stable_sorted _ v.data hw)
  have hst : ∀ x, Spec.equalTo cmp x (v.sortBy S cmp).data = Spec.equalTo cmp x l := by
    intro x
    have := S.stable_stable (Vec.less cmp) v.data hw x
    rw [equal_filter cmp eq hc, equal_filter cmp eq hc] at this
    rw [he x]; exact this
  have hrefl : ∀ a, cmp a a = .eq := by
    intro a
    have := hc.swap a a
    cases h : cmp a a <;> rw [h] at this <;> simp_all [Ordering.swap]
  have key : ∀ (a b : List α), a.Pairwise (fun x y => cmp x y ≠ .gt) →
      b.Pairwise (fun x y => cmp x y ≠ .gt) → (∀ x, Spec.equalTo cmp x a = Spec.equalTo cmp x b) → a = b := by
    intro a
    induction a with
    | nil =>
      intro b _ _ h
      cases b with
      | nil => rfl
      | cons y b => have := h y; simp [Spec.equalTo, hrefl] at this
    | cons x a ih =>
      intro b ha hb h
      cases b with
      | nil => have := h x; simp [Spec.equalTo, hrefl] at this
      | cons y b =>
        have hxy : cmp y x = .eq := by
          have h1 : x ∈ Spec.equalTo cmp x (y :: b) := by
            rw [← h x]; simp [Spec.equalTo, hrefl]
          have h2 : y ∈ Spec.equalTo cmp y (x :: a) := by
            rw [h y]; simp [Spec.equalTo, hrefl]
          simp only [Spec.equalTo, List.mem_filter] at h1 h2
          have le1 : cmp y x ≠ .gt := by
            rcases List.mem_cons.1 h1.1 with e | h1
            · rw [e, hrefl]; decide
            · exact (List.pairwise_cons.1 hb).1 x h1
          have le2 : cmp x y ≠ .gt := by
            rcases List.mem_cons.1 h2.1 with e | h2
            · rw [e, hrefl]; decide
            · exact (List.pairwise_cons.1 ha).1 y h2
          rw [hc.swap y x] at le2
          cases h : cmp y x <;> simp_all [Ordering.swap]
        have hx := h x
        simp only [Spec.equalTo, List.filter_cons, hrefl, hxy, beq_self_eq_true, if_true,
          List.cons.injEq] at hx
        obtain ⟨rfl, hx⟩ := hx
        congr 1
        refine ih b (List.pairwise_cons.1 ha).2 (List.pairwise_cons.1 hb).2 ?_
        intro z
        have hz := h z
        simp only [Spec.equalTo, List.filter_cons] at hz ⊢
        split at hz
        · exact (List.cons.inj hz).2
        · exact hz
  exact key _ _ hsorted hs hst

/-- C52: elements without a Cmp method make Sort panic as soon as there are two of them. -/
theorem C52_vec_sort_noCmp (S : SortLib) (v : Vec α) :
    (2 ≤ v.len → v.sort S none = .error .nilDeref ∧ v.sortUnstable S none = .error .nilDeref) ∧
    (v.len < 2 → v.sort S none = .ok v ∧ v.sortUnstable S none = .ok v) := by
  unfold Vec.sort Vec.sortUnstable Vec.len
  constructor
  · intro h; rw [if_neg (by omega)]; exact ⟨rfl, rfl⟩
  · intro h; rw [if_pos h]; exact ⟨rfl, rfl⟩

/-- The contract of package sort is satisfiable: merge sort meets it. -/
def mergeSortLib : SortLib where
  stable lt l := l.mergeSort fun a b => !lt b a
  unstable lt l := l.mergeSort fun a b => !lt b a
  stable_perm _ _ := List.mergeSort_perm _ _
  unstable_perm _ _ := List.mergeSort_perm _ _
  stable_sorted lt l h := by
    have := List.pairwise_mergeSort (le := fun a b => !lt b a)
      (fun a b c h1 h2 => by
        simp only [Bool.not_eq_true'] at *
        cases h3 : lt c a with
        | false => rfl
        | true => rcases h.cotrans c b a h3 with h4 | h4 <;> simp_all)
      (fun a b => by
        cases h1 : lt b a with
        | false => rfl
        | true =>
          cases h2 : lt a b with
          | false => rfl
          | true => have := h.trans a b a h2 h1; rw [h.irrefl] at this; cases this) l
    exact this.imp fun hab => by simpa using hab
  unstable_sorted lt l h := by
    have := List.pairwise_mergeSort (le := fun a b => !lt b a)
      (fun a b c h1 h2 => by
        simp only [Bool.not_eq_true'] at *
        cases h3 : lt c a with
        | false => rfl
        | true => rcases h.cotrans c b a h3 with h4 | h4 <;> simp_all)
      (fun a b => by
        cases h1 : lt b a with
        | false => rfl
        | true =>
          cases h2 : lt a b with
          | false => rfl
          | true => have := h.trans a b a h2 h1; rw [h.irrefl] at this; cases this) l
    exact this.imp fun hab => by simpa using hab
  stable_stable lt l h x := by
    have hsub : (l.filter fun a => !lt a x && !lt x a).Sublist (l.mergeSort fun a b => !lt b a) := by
      refine List.sublist_mergeSort ?_ ?_ ?_ List.filter_sublist
      · intro a b c h1 h2
        simp only [Bool.not_eq_true'] at *
        cases h3 : lt c a with
        | false => rfl
        | true => rcases h.cotrans c b a h3 with h4 | h4 <;> simp_all
      · intro a b
        cases h1 : lt b a with
        | false => rfl
        | true =>
          cases h2 : lt a b with
          | false => rfl
          | true => have := h.trans a b a h2 h1; rw [h.irrefl] at this; cases this
      · rw [List.pairwise_iff_forall_sublist]
        intro a b hab
        have ha : a ∈ l.filter fun a => !lt a x && !lt x a := hab.subset (by simp)
        have hb : b ∈ l.filter fun a => !lt a x && !lt x a := hab.subset (by simp)
        simp only [List.mem_filter, Bool.and_eq_true, Bool.not_eq_true'] at ha hb
        simp only [Bool.not_eq_true']
        cases h3 : lt b a with
        | false => rfl
        | true => rcases h.cotrans b x a h3 with h4 | h4 <;> simp_all
    have hsub' := hsub.filter (fun a => !lt a x && !lt x a)
    rw [List.filter_filter] at hsub'
    simp only [Bool.and_self] at hsub'
    refine (hsub'.eq_of_length ?_).symm
    exact ((List.mergeSort_perm l _).filter _).length_eq.symm

/-! ### C53 -/

theorem VecIter.next_ok (v : Vec α) (p : Nat) (h : p < v.len) :
    (⟨v, p⟩ : VecIter α).next = .ok (⟨v, p + 1⟩, Opt.some v.data[p]) := by
  unfold VecIter.next
  rw [if_neg (by simp only; omega)]
  simp only [Vec.getUnchecked, index_lt h, Go.bind_ok]

theorem VecIter.next_end (v : Vec α) (p : Nat) (h : v.len ≤ p) :
    (⟨v, p⟩ : VecIter α).next = .ok (⟨v, p⟩, Opt.none) := by
  unfold VecIter.next
  rw [if_pos h]

/-- Call Next `n` times and collect the results. -/
def VecIter.nexts : Nat → VecIter α → Go (List (Option α))
  | 0, _ => .ok []
  | n + 1, it => do
    let (it, r) ← it.next
    let rs ← VecIter.nexts n it
    .ok (r.value :: rs)

/-- C53: calling Next any number of times on a fresh iterator yields the elements in index order and
then None forever; the vector itself is not an argument of Next. -/
theorem C53_vec_iter_next (v : Vec α) (n : Nat) :
    v.intoIter.nexts n = .ok ((List.range n).map fun i => v.data[i]?) := by
  have key : ∀ n p, VecIter.nexts n ⟨v, p⟩ = .ok ((List.range' p n).map fun i => v.data[i]?) := by
    intro n p
    induction n generalizing p with
    | zero => rfl
    | succ n ih =>
      simp only [VecIter.nexts]
      by_cases h : p < v.len
      · simp only [VecIter.next_ok v p h, Go.bind_ok, ih, List.range'_succ, List.map_cons, Opt.some]
        rw [List.getElem?_eq_getElem h]
      · have h' : v.len ≤ p := by omega
        simp only [VecIter.next_end v p h', Go.bind_ok, ih, List.range'_succ, List.map_cons, Opt.none]
        congr 1
        rw [List.getElem?_eq_none h']
        congr 1
        have : ∀ q, v.len ≤ q → (List.range' q n).map (fun i => v.data[i]?) = List.replicate n none := by
          intro q hq
          rw [List.eq_replicate_iff]
          refine ⟨by simp, ?_⟩
          intro b hb
          obtain ⟨i, hi, rfl⟩ := List.mem_map.1 hb
          rw [List.mem_range'_1] at hi
          simp only [Vec.len] at hq
          exact List.getElem?_eq_none (by omega)
        rw [this p h', this (p + 1) (by omega)]
  rw [List.range_eq_range']
  exact key n 0

theorem VecIter.drain_eq {β : Type} (step : β → α → Eff σ β) (v : Vec α) (fuel p : Nat) (acc : β)
    (h : v.len < p + fuel) (hf : 0 < fuel) :
    VecIter.drain step fuel ⟨v, p⟩ acc = foldE step acc (v.data.drop p) >>= fun r => pure (some r) := by
  induction fuel generalizing p acc with
  | zero => omega
  | succ fuel ih =>
    simp only [VecIter.drain]
    by_cases hp : p < v.len
    · rw [VecIter.next_ok v p hp, List.drop_eq_getElem_cons hp]
      simp only [Eff.lift_ok, Eff.pure_bind, Opt.isNone, Opt.some, Bool.false_eq_true, if_false,
        Opt.unwrap, deref_some, foldE, LawfulMonad.bind_assoc]
      congr 1
      funext b
      exact ih (p + 1) b (by omega) (by omega)
    · have hp' : v.len ≤ p := by omega
      rw [VecIter.next_end v p hp', List.drop_of_length_le hp']
      simp [Opt.isNone, Opt.none, foldE]

theorem foldE_push (g : Growth) (f : α → Eff σ α) (l : List α) (acc : Vec α) :
    ∃ c : List α → Nat, foldE (fun (w : Vec α) x => do let y ← f x; pure (w.push g y)) acc l =
      mapE f l >>= fun ys => pure ⟨acc.data ++ ys, c ys⟩ := by
  induction l generalizing acc with
  | nil => exact ⟨fun _ => acc.cap, by simp [foldE, mapE]⟩
  | cons a l ih =>
    have h := fun y => ih (acc.push g y)
    refine ⟨fun ys => match ys with | [] => 0 | y :: ys => (Classical.choose (h y)) ys, ?_⟩
    simp only [foldE, mapE, LawfulMonad.bind_assoc, Eff.pure_bind]
    congr 1
    funext y
    refine (Classical.choose_spec (h y)).trans ?_
    simp [Vec.push, Vec.goAppend_data]

theorem foldE_pushIf (g : Growth) (f : α → Eff σ Bool) (l : List α) (acc : Vec α) :
    ∃ c : List Bool → Nat, foldE (fun (w : Vec α) x => do
        let b ← f x
        pure (if b then w.push g x else w)) acc l =
      mapE f l >>= fun bs => pure ⟨acc.data ++ select l bs, c bs⟩ := by
  induction l generalizing acc with
  | nil => exact ⟨fun _ => acc.cap, by simp [foldE, mapE]⟩
  | cons a l ih =>
    have h := fun b : Bool => ih (if b then acc.push g a else acc)
    refine ⟨fun bs => match bs with | [] => 0 | b :: bs => (Classical.choose (h b)) bs, ?_⟩
    simp only [foldE, mapE, LawfulMonad.bind_assoc, Eff.pure_bind]
    congr 1
    funext b
    refine (Classical.choose_spec (h b)).trans ?_
    cases b <;> simp [Vec.push, Vec.goAppend_data]

/-- C53: Map, Filter, Fold and CollectToVec called on an iterator that has already yielded `p` elements
process exactly the remaining elements, in order, calling the callback once per element; they
terminate (never `none`).  Map, Filter and CollectToVec give iterators and vectors over the results. -/
theorem C53_vec_iter_adapters (g : Growth) (v : Vec α) (p : Nat) (f : α → Eff σ α)
    (q : α → Eff σ Bool) (z : α) (op : α → α → Eff σ α) :
    (∃ c : List α → Nat, (⟨v, p⟩ : VecIter α).map g f =
      mapE f (v.data.drop p) >>= fun ys => pure (some (Vec.intoIter ⟨ys, c ys⟩))) ∧
    (∃ c : List Bool → Nat, (⟨v, p⟩ : VecIter α).filter g q =
      mapE q (v.data.drop p) >>= fun bs =>
        pure (some (Vec.intoIter ⟨select (v.data.drop p) bs, c bs⟩))) ∧
    (⟨v, p⟩ : VecIter α).fold z op = (foldE op z (v.data.drop p) >>= fun r => pure (some r)) ∧
    (∃ c, (⟨v, p⟩ : VecIter α).collectToVec g = .ok (some ⟨v.data.drop p, c⟩)) := by
  have hr : v.len < p + (⟨v, p⟩ : VecIter α).rounds := by simp [VecIter.rounds]; omega
  have hr0 : 0 < (⟨v, p⟩ : VecIter α).rounds := by simp [VecIter.rounds]
  refine ⟨?_, ?_, ?_, ?_⟩
  · obtain ⟨c, hc⟩ := foldE_push g f (v.data.drop p) Vec.new
    refine ⟨c, ?_⟩
    unfold VecIter.map
    rw [VecIter.drain_eq _ _ _ _ _ hr hr0, hc]
    simp [Vec.new]
  · obtain ⟨c, hc⟩ := foldE_pushIf g q (v.data.drop p) Vec.new
    refine ⟨c, ?_⟩
    unfold VecIter.filter
    rw [VecIter.drain_eq _ _ _ _ _ hr hr0, hc]
    simp [Vec.new]
  · unfold VecIter.fold
    rw [VecIter.drain_eq _ _ _ _ _ hr hr0]
  · have := foldE_push (σ := Unit) g (fun x => pure x) (v.data.drop p) Vec.new
    obtain ⟨c, hc⟩ := this
    refine ⟨c (v.data.drop p), ?_⟩
    unfold VecIter.collectToVec
    rw [VecIter.drain_eq _ _ _ _ _ hr hr0]
    simp only [Eff.pure_bind] at hc
    have hm := mapE_pure (σ := Unit) (fun x : α => x) (v.data.drop p)
    rw [List.map_id' (v.data.drop p)] at hm
    rw [hc, hm]
    simp [Vec.new]

/-- C53 for callbacks without effects. -/
theorem C53_vec_iter_adapters_pure (g : Growth) (v : Vec α) (p : Nat) (f : α → α) (q : α → Bool) (z : α)
    (op : α → α → α) (s : σ) :
    (∃ c, (⟨v, p⟩ : VecIter α).map g (fun a => pure (f a)) s =
      (.ok (some (Vec.intoIter ⟨(v.data.drop p).map f, c⟩)), s)) ∧
    (∃ c, (⟨v, p⟩ : VecIter α).filter g (fun a => pure (q a)) s =
      (.ok (some (Vec.intoIter ⟨(v.data.drop p).filter q, c⟩)), s)) ∧
    (⟨v, p⟩ : VecIter α).fold z (fun a b => pure (op a b)) s =
      (.ok (some ((v.data.drop p).foldl op z)), s) := by
  obtain ⟨⟨c1, h1⟩, ⟨c2, h2⟩, h3, _⟩ := C53_vec_iter_adapters g v p (fun a => (pure (f a) : Eff σ α))
    (fun a => pure (q a)) z (fun a b => pure (op a b))
  refine ⟨⟨c1 ((v.data.drop p).map f), ?_⟩, ⟨c2 ((v.data.drop p).map q), ?_⟩, ?_⟩
  · rw [h1]; simp
  · rw [h2]; simp only [mapE_pure, Eff.pure_bind, Eff.pure_run, select_map]
  · rw [h3]; simp

/-- A callback that records the elements it sees, on an iterator advanced by one. -/
example : ((⟨⟨[1, 2, 3], 3⟩, 1⟩ : VecIter Nat).fold 10 (fun a b => fun log => (.ok (a + b), log ++ [b]))
    ([] : List Nat)) = (.ok (some 15), [2, 3]) := by decide

/-! ### C54 -/

theorem rev_fold [Inhabited α] (l : List α) (w : Vec α) (i : Nat) (hw : w.data.length < 2 ^ 64)
    (hi : i < w.data.length) (hl : l.length ≤ i + 1) (s : Unit) :
    ∃ j, foldE (σ := Unit) (fun (st : Vec α × Nat) x => do
      let d ← Eff.lift (setIndex st.1.data st.2 x)
      pure (⟨d, st.1.cap⟩, usizeSub st.2 1)) (w, i) l s =
      (.ok (⟨w.data.take (i + 1 - l.length) ++ l.reverse ++ w.data.drop (i + 1), w.cap⟩, j), s) := by
  induction l generalizing w i with
  | nil =>
    refine ⟨i, ?_⟩
    simp [foldE]
  | cons x l ih =>
    simp only [foldE]
    rw [setIndex_lt hi]
    simp only [Eff.lift_ok, Eff.pure_bind]
    simp only [List.length_cons] at hl
    cases l with
    | nil =>
      refine ⟨usizeSub i 1, ?_⟩
      have e : w.data.take (i + 1 - [x].length) ++ [x].reverse ++ w.data.drop (i + 1) = w.data.set i x := by
        simp [List.set_eq_take_append_cons_drop, hi]
      simp only [foldE, Eff.pure_run, e]
    | cons y l =>
      have hi0 : 0 < i := by simp at hl; omega
      have hsub : usizeSub i 1 = i - 1 := by unfold usizeSub; omega
      rw [hsub]
      obtain ⟨j, hj⟩ := ih ⟨w.data.set i x, w.cap⟩ (i - 1) (by simpa using hw) (by simp; omega) (by omega)
      refine ⟨j, ?_⟩
      refine hj.trans ?_
      have e1 : i - 1 + 1 = i := by omega
      have e2 : i + 1 - (x :: y :: l).length = i - (y :: l).length := by simp
      have e3 : (w.data.set i x).take (i - (y :: l).length) = w.data.take (i - (y :: l).length) := by
        rw [List.take_set_of_le (by omega)]
      have e4 : (w.data.set i x).drop i = x :: w.data.drop (i + 1) := by
        rw [List.drop_eq_getElem_cons (by simpa using hi)]
        simp [List.drop_set_of_lt]
      have e5 : (w.data.set i x).take (i - 1 + 1 - (y :: l).length) ++ (y :: l).reverse ++
            (w.data.set i x).drop (i - 1 + 1) =
          w.data.take (i + 1 - (x :: y :: l).length) ++ (x :: y :: l).reverse ++ w.data.drop (i + 1) := by
        rw [e1, e2, e3, e4]; simp
      simp only [e5]

/-- What Rev returns, for every vector and every number `p` of elements already consumed: `p` zero values
followed by the remaining elements in reverse order. -/
theorem VecIter.rev_eq [Inhabited α] (v : Vec α) (p : Nat) (hp : p ≤ v.len) (hlen : v.len < 2 ^ 63) :
    (⟨v, p⟩ : VecIter α).rev = .ok (some (Vec.intoIter
      ⟨List.replicate p default ++ (v.data.drop p).reverse, v.len⟩)) := by
  have hr : v.len < p + (⟨v, p⟩ : VecIter α).rounds := by simp [VecIter.rounds]; omega
  have hr0 : 0 < (⟨v, p⟩ : VecIter α).rounds := by simp [VecIter.rounds]
  unfold VecIter.rev
  simp only [Vec.len] at hp hlen hr ⊢
  simp only [Vec.withLen, makeLen, hlen, if_true, Go.bind_ok]
  rw [VecIter.drain_eq _ _ _ _ _ hr hr0]
  by_cases h0 : v.data = []
  · have hp0 : p = 0 := by rw [h0] at hp; simpa using hp
    simp [foldE, h0, hp0]
  · have h0 : 0 < v.data.length := List.length_pos_iff.2 h0
    have hs : usizeSub v.data.length 1 = v.data.length - 1 := by unfold usizeSub; omega
    rw [hs]
    obtain ⟨j, hj⟩ := rev_fold (v.data.drop p) ⟨List.replicate v.data.length default, v.data.length⟩
      (v.data.length - 1) (by simp; omega) (by simp; omega) (by simp; omega) ()
    rw [Eff.bind_run, hj]
    have e : v.data.length - 1 + 1 = v.data.length := by omega
    have e2 : v.data.length - (v.data.drop p).length = p := by simp; omega
    have e3 : min p v.data.length = p := by omega
    have e4 : (List.replicate v.data.length (default : α)).take
          (v.data.length - 1 + 1 - (v.data.drop p).length) ++ (v.data.drop p).reverse ++
          (List.replicate v.data.length default).drop (v.data.length - 1 + 1) =
        List.replicate p default ++ (v.data.drop p).reverse := by
      rw [e, e2]; simp [e3]
    simp only [Eff.pure_run, Go.bind_ok, Option.map_some, e4]

/-- C54, full property: Rev yields the remaining elements in reverse order whatever prefix was
consumed.  Proved: exactly for iterators that are fresh (or over an empty vector: p = 0).  Missing:
iterators advanced by `p > 0`, see `C54_rev_fails`.  (`v.len < 2^63` holds for every Go slice.) -/
theorem C54_rev_partial [Inhabited α] (v : Vec α) (p : Nat) (hp : p ≤ v.len) (hlen : v.len < 2 ^ 63) :
    (∃ c, (⟨v, p⟩ : VecIter α).rev = .ok (some (Vec.intoIter ⟨(v.data.drop p).reverse, c⟩))) ↔ p = 0 := by
  rw [VecIter.rev_eq v p hp hlen]
  constructor
  · rintro ⟨c, h⟩
    have h' := congrArg (fun r : Go (Option (VecIter α)) =>
      match r with | .ok (some it) => it.vec.data.length | _ => 0) h
    simp [Vec.intoIter] at h'
    omega
  · rintro rfl
    exact ⟨v.len, by simp⟩

/-- C54 is violated by every advanced iterator: `p` zero values come first. -/
theorem C54_rev_fails [Inhabited α] (v : Vec α) (p : Nat) (h0 : 0 < p) (hp : p ≤ v.len)
    (hlen : v.len < 2 ^ 63) :
    ∃ it : VecIter α, (⟨v, p⟩ : VecIter α).rev = .ok (some it) ∧
      it.next.toOption.map (·.2.value) = some (some default) ∧ it.vec.len = v.len := by
  refine ⟨_, VecIter.rev_eq v p hp hlen, ?_, by simp only [Vec.len] at hp ⊢; simp [Vec.intoIter]; omega⟩
  obtain ⟨p, rfl⟩ : ∃ q, p = q + 1 := ⟨p - 1, by omega⟩
  simp [Vec.intoIter, VecIter.next, Vec.getUnchecked, index, List.replicate_succ, Opt.some]

example : ((⟨⟨[1, 2, 3], 3⟩, 1⟩ : VecIter Nat).rev = .ok (some ⟨⟨[0, 3, 2], 3⟩, 0⟩)) ∧
    (⟨⟨[1, 2, 3], 3⟩, 0⟩ : VecIter Nat).rev = .ok (some ⟨⟨[3, 2, 1], 3⟩, 0⟩) := by decide

/-! ### C55 -/

theorem Vec.contains_loop (deq : α → α → Bool) (x : α) (l : List α) :
    Vec.contains.loop deq x l = true ↔ ∃ a ∈ l, deq a x = true := by
  induction l with
  | nil => simp [Vec.contains.loop]
  | cons a l ih =>
    simp only [Vec.contains.loop]
    split
    · next h => simp [h]
    · next h => rw [ih]; simp [h]

theorem Vec.eqLoop_eq (e : α → α → Bool) (a b : List α) (n i : Nat) (ha : i + n = a.length)
    (hb : i + n = b.length) :
    ∃ r, Vec.eqLoop (some e) a b n i = .ok r ∧
      (r = true ↔ ∀ j (h1 : j < a.length) (h2 : j < b.length), i ≤ j → e a[j] b[j] = true) := by
  induction n generalizing i with
  | zero => exact ⟨true, rfl, by simp; intros; omega⟩
  | succ n ih =>
    have h1 : i < a.length := by omega
    have h2 : i < b.length := by omega
    simp only [Vec.eqLoop, index_lt h1, index_lt h2, Go.bind_ok]
    by_cases he : e a[i] b[i] = true
    · simp only [he, Bool.not_true, Bool.false_eq_true, if_false]
      obtain ⟨r, hr, hiff⟩ := ih (i + 1) (by omega) (by omega)
      refine ⟨r, hr, hiff.trans ?_⟩
      constructor
      · intro h j h1 h2 hij
        rcases Nat.eq_or_lt_of_le hij with rfl | hij
        · exact he
        · exact h j h1 h2 hij
      · intro h j h1 h2 hij
        exact h j h1 h2 (by omega)
    · have he' : e a[i] b[i] = false := by simpa using he
      simp only [he', Bool.not_false, if_true]
      refine ⟨false, rfl, by simp; exact ⟨i, Nat.le_refl _, h1, h2, he'⟩⟩

theorem Vec.cloneLoop_eq (c : α → α) (src dst : List α) (n i : Nat) (h1 : i + n = src.length)
    (h2 : dst.length = src.length) :
    Vec.cloneLoop (some c) src n i dst = .ok (dst.take i ++ (src.drop i).map c) := by
  induction n generalizing i dst with
  | zero =>
    have e1 : dst.take i = dst := List.take_of_length_le (by omega)
    have e2 : src.drop i = [] := List.drop_of_length_le (by omega)
    simp [Vec.cloneLoop, e1, e2]
  | succ n ih =>
    have h3 : i < src.length := by omega
    simp only [Vec.cloneLoop, index_lt h3, Go.bind_ok]
    rw [setIndex_lt (by omega)]
    simp only [Go.bind_ok]
    rw [ih _ _ (by omega) (by simpa using h2)]
    have h4 : i < dst.length := by omega
    rw [List.take_add_one, List.drop_eq_getElem_cons h3, List.map_cons]
    simp [h4, List.take_set_of_le]

/-- C55: Contains, Eq and Clone, for every vector and every pair of vectors; Eq is true exactly if the
vectors have the same length and are equal element by element; Clone gives the vector of the
clones.  That later changes of one do not affect the other is `C55_clone_independent`. -/
theorem C55_contains_eq_clone [Inhabited α] (v w : Vec α) (x : α) (deq e : α → α → Bool) (c : α → α)
    (hlen : v.len < 2 ^ 63) :
    (v.contains deq x = true ↔ ∃ a ∈ v.data, deq a x = true) ∧
    (∃ r, v.eq (some e) w = .ok r ∧ (r = true ↔ v.len = w.len ∧
      ∀ j (h1 : j < v.data.length) (h2 : j < w.data.length), e v.data[j] w.data[j] = true)) ∧
    v.clone (some c) = .ok ⟨v.data.map c, v.len⟩ := by
  refine ⟨Vec.contains_loop _ _ _, ?_, ?_⟩
  · unfold Vec.eq
    by_cases h : v.len = w.len
    · rw [if_neg (by simpa using h)]
      obtain ⟨r, h1, h2⟩ := Vec.eqLoop_eq e v.data w.data v.len 0 (by simp [Vec.len])
        (by unfold Vec.len at *; omega)
      refine ⟨r, h1, h2.trans ?_⟩
      simp [h]
    · rw [if_pos h]
      exact ⟨false, rfl, by simp [h]⟩
  · unfold Vec.clone
    simp only [Vec.withLen, makeLen, hlen, if_true, Go.bind_ok]
    rw [Vec.cloneLoop_eq c v.data _ v.len 0 (by simp [Vec.len]) (by simp [Vec.len])]
    simp

/-- C55: without the element method, Clone and Eq panic as soon as there is an element to look at. -/
theorem C55_missing_methods [Inhabited α] (v w : Vec α) (h : 0 < v.len) (hlen : v.len < 2 ^ 63)
    (hw : v.len = w.len) :
    v.clone none = .error .nilDeref ∧ v.eq none w = .error .nilDeref := by
  obtain ⟨n, hn⟩ : ∃ n, v.len = n + 1 := ⟨v.len - 1, by omega⟩
  have h0 : 0 < v.data.length := h
  constructor
  · unfold Vec.clone
    simp only [Vec.withLen, makeLen, hlen, if_true, Go.bind_ok]
    rw [hn]
    simp only [Vec.cloneLoop, index_lt h0, Go.bind_ok, Go.bind_error]
  · unfold Vec.eq
    rw [if_neg (by simpa using hw), hn]
    simp only [Vec.eqLoop, index_lt h0, Go.bind_ok]

example : (⟨[1, 2], 2⟩ : Vec Nat).eq (some (· == ·)) ⟨[1, 2], 9⟩ = .ok true ∧
    (⟨[1, 2], 2⟩ : Vec Nat).eq (some (· == ·)) ⟨[1, 3], 9⟩ = .ok false ∧
    (⟨[1, 2], 4⟩ : Vec Nat).clone (some id) = .ok ⟨[1, 2], 2⟩ := by decide

end Gost
