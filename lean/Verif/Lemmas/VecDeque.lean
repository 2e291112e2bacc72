import Verif.Model.VecDeque
import Verif.Spec.List
/-
The ring buffer: invariant, abstraction to a list, and what each primitive does to the list.
-/
set_option linter.unusedSectionVars false
namespace Gost.VecDeque
variable {σ α : Type} [Inhabited α]

/-- Representation invariant. -/
structure Inv (d : VecDeque α) : Prop where
  pos : 0 < d.buffer.length
  small : d.buffer.length < 2 ^ 63
  len_le : d.len ≤ d.buffer.length
  head_lt : d.head < d.buffer.length

/-- The elements in order: start at the head and go round. -/
def toList (d : VecDeque α) : List α := (d.buffer.drop d.head ++ d.buffer.take d.head).take d.len

/-- The position of element `i` without machine arithmetic. -/
def phys (cap head i : Nat) : Nat := if head + i ≥ cap then head + i - cap else head + i

omit [Inhabited α] in
theorem toList_length {d : VecDeque α} (h : d.Inv) : d.toList.length = d.len := by
  have := h.len_le
  have := h.head_lt
  simp [toList]; omega

omit [Inhabited α] in
theorem toList_getElem? {d : VecDeque α} (h : d.Inv) {i : Nat} (hi : i < d.len) :
    d.toList[i]? = d.buffer[phys d.buffer.length d.head i]? := by
  have := h.len_le
  have := h.head_lt
  unfold toList phys
  rw [List.getElem?_take_of_lt hi]
  by_cases hc : d.head + i ≥ d.buffer.length
  · rw [if_pos hc, List.getElem?_append_right (by simp; omega), List.getElem?_take_of_lt (by simp; omega)]
    congr 1
    simp; omega
  · rw [if_neg hc, List.getElem?_append_left (by simp; omega), List.getElem?_drop]

omit [Inhabited α] in
theorem toList_eq {d : VecDeque α} (h : d.Inv) {l : List α} (hl : l.length = d.len)
    (he : ∀ i, i < d.len → l[i]? = d.buffer[phys d.buffer.length d.head i]?) : d.toList = l := by
  apply List.ext_getElem?
  intro i
  by_cases hi : i < d.len
  · rw [toList_getElem? h hi, he i hi]
  · rw [List.getElem?_eq_none (by rw [toList_length h]; omega), List.getElem?_eq_none (by omega)]

theorem toPhysicalIndex_eq {d : VecDeque α} (h : d.Inv) {i : Nat} (hi : i ≤ d.buffer.length) :
    d.toPhysicalIndex i = phys d.buffer.length d.head i := by
  have := h.small
  have := h.head_lt
  unfold toPhysicalIndex wrapAdd wrapIndex phys usize usizeSub
  rw [Nat.mod_eq_of_lt (by omega)]
  split
  · omega
  · rfl

omit [Inhabited α] in
theorem phys_lt {d : VecDeque α} (h : d.Inv) {i : Nat} (hi : i ≤ d.buffer.length) :
    phys d.buffer.length d.head i < d.buffer.length := by
  have := h.head_lt
  unfold phys
  split <;> omega

theorem index_phys {d : VecDeque α} (h : d.Inv) {i : Nat} (hi : i < d.len) :
    index d.buffer (d.toPhysicalIndex i) = .ok (d.toList[i]'(by rw [toList_length h]; exact hi)) := by
  have h1 := h.len_le
  rw [toPhysicalIndex_eq h (by omega)]
  have h2 := toList_getElem? h hi
  have h3 := phys_lt h (i := i) (by omega)
  rw [index_lt h3]
  congr 1
  rw [List.getElem?_eq_getElem h3, List.getElem?_eq_getElem (by rw [toList_length h]; exact hi)] at h2
  exact (Option.some.inj h2).symm

theorem getUnchecked_eq {d : VecDeque α} (h : d.Inv) {i : Nat} (hi : i < d.toList.length) :
    d.getUnchecked i = .ok d.toList[i] := index_phys h (by rwa [toList_length h] at hi)

theorem get_eq {d : VecDeque α} (h : d.Inv) (i : Nat) : d.get i = .ok ⟨d.toList[i]?⟩ := by
  have hl := toList_length h
  unfold get
  by_cases hi : i < d.len
  · rw [if_neg (by omega), index_phys h hi]
    simp [Opt.some, hl, hi]
  · rw [if_pos (by omega)]
    rw [List.getElem?_eq_none (by omega)]
    rfl

theorem set_phys {d : VecDeque α} (h : d.Inv) {k : Nat} (hk : k < d.len) (v : α) :
    Inv { d with buffer := d.buffer.set (d.toPhysicalIndex k) v } ∧
    toList { d with buffer := d.buffer.set (d.toPhysicalIndex k) v } = d.toList.set k v := by
  obtain ⟨h1, h2, h3, h4⟩ := h
  have hInv : Inv { d with buffer := d.buffer.set (d.toPhysicalIndex k) v } :=
    ⟨by simpa using h1, by simpa using h2, by simpa using h3, by simpa using h4⟩
  refine ⟨hInv, toList_eq hInv (by simp [toList_length ⟨h1, h2, h3, h4⟩]) ?_⟩
  intro i hi
  simp only at hi
  simp only [List.length_set]
  rw [toPhysicalIndex_eq ⟨h1, h2, h3, h4⟩ (by omega), List.getElem?_set, List.getElem?_set]
  have hp := phys_lt (d := d) ⟨h1, h2, h3, h4⟩ (i := k) (by omega)
  have hl := toList_length (d := d) ⟨h1, h2, h3, h4⟩
  by_cases hki : k = i
  · subst hki
    rw [if_pos rfl, if_pos rfl, if_pos (by omega), if_pos hp]
  · rw [if_neg hki, if_neg, toList_getElem? ⟨h1, h2, h3, h4⟩ hi]
    unfold phys
    split <;> split <;> omega

theorem setUnchecked_eq {d : VecDeque α} (h : d.Inv) {k : Nat} (hk : k < d.len) (v : α) :
    ∃ d', d.setUnchecked k v = .ok d' ∧ d'.Inv ∧ d'.toList = d.toList.set k v ∧ d'.len = d.len ∧
      d'.buffer.length = d.buffer.length := by
  have h3 := h.len_le
  unfold setUnchecked
  rw [setIndex_lt (by rw [toPhysicalIndex_eq h (by omega)]; exact phys_lt h (by omega))]
  exact ⟨_, rfl, (set_phys h hk v).1, (set_phys h hk v).2, rfl, by simp⟩

theorem swap_eq {d : VecDeque α} (h : d.Inv) {a b : Nat} (ha : a < d.len) (hb : b < d.len) :
    ∃ d', d.swap a b = .ok d' ∧ d'.Inv ∧ Spec.swapAt d.toList a b = some d'.toList ∧ d'.len = d.len ∧
      d'.buffer.length = d.buffer.length := by
  have hl := toList_length h
  have h3 := h.len_le
  have hsw : Spec.swapAt d.toList a b =
      some ((d.toList.set a (d.toList[b]'(by omega))).set b (d.toList[a]'(by omega))) := by
    unfold Spec.swapAt
    simp [hl, ha, hb]
  unfold swap
  by_cases hab : a = b
  · subst hab
    rw [if_pos rfl]
    refine ⟨d, rfl, h, ?_, rfl, rfl⟩
    rw [hsw]
    simp
  · rw [if_neg hab]
    unfold Vec.swapData
    rw [index_phys h hb, index_phys h ha]
    simp only [Go.bind_ok]
    have pa := toPhysicalIndex_eq h (i := a) (by omega)
    have pb := toPhysicalIndex_eq h (i := b) (by omega)
    have la := phys_lt h (i := a) (by omega)
    have lb := phys_lt h (i := b) (by omega)
    rw [setIndex_lt (by rw [pa]; exact la)]
    simp only [Go.bind_ok]
    rw [setIndex_lt (by rw [pb]; simpa using lb)]
    simp only [Go.bind_ok]
    obtain ⟨i1, e1⟩ := set_phys h ha (d.toList[b]'(by omega))
    have hk2 : b < ({ d with buffer := d.buffer.set (d.toPhysicalIndex a) (d.toList[b]'(by omega)) } :
        VecDeque α).len := hb
    obtain ⟨i2, e2⟩ := set_phys i1 hk2 (d.toList[a]'(by omega))
    have epb : ({ d with buffer := d.buffer.set (d.toPhysicalIndex a) (d.toList[b]'(by omega)) } :
        VecDeque α).toPhysicalIndex b = d.toPhysicalIndex b := by
      simp [toPhysicalIndex, wrapAdd]
    rw [epb] at i2 e2
    refine ⟨_, rfl, i2, ?_, rfl, by simp⟩
    rw [hsw, e2, e1]

omit [Inhabited α] in
theorem copyRange_eq (l : List α) (src dst n : Nat) (hd : dst + n ≤ l.length) (hs : src + n ≤ l.length)
    (hl : l.length < 2 ^ 63) : ∃ l', copyRange l src dst n = .ok l' ∧ l'.length = l.length ∧
      ∀ j, l'[j]? = if dst ≤ j ∧ j < dst + n then l[src + (j - dst)]? else l[j]? := by
  unfold copyRange usize
  rw [Nat.mod_eq_of_lt (by omega), if_pos (by omega)]
  have e : min (dst + n - dst) (l.length - src) = n := by omega
  simp only [e]
  refine ⟨_, rfl, by simp; omega, ?_⟩
  intro j
  rcases Nat.lt_or_ge j dst with h | h
  · rw [if_neg (by omega), List.append_assoc, List.getElem?_append_left (by simp; omega),
      List.getElem?_take_of_lt h]
  · rw [List.append_assoc, List.getElem?_append_right (by simp; omega)]
    have e2 : j - (l.take dst).length = j - dst := by simp; omega
    rw [e2]
    rcases Nat.lt_or_ge j (dst + n) with h2 | h2
    · rw [if_pos ⟨h, h2⟩, List.getElem?_append_left (by simp; omega), List.getElem?_take_of_lt (by omega),
        List.getElem?_drop]
    · rw [if_neg (by omega), List.getElem?_append_right (by simp; omega), List.getElem?_drop]
      congr 1
      simp; omega

/-- After the buffer was copied to a larger one, `_HandleCapacityIncrease` restores the elements. -/
theorem handleCapacityIncrease_eq {d : VecDeque α} (h : d.Inv) (b : List α) (hb : d.buffer.length ≤ b.length)
    (hsm : b.length < 2 ^ 63) (hpre : ∀ j, j < d.buffer.length → b[j]? = d.buffer[j]?) :
    ∃ d', handleCapacityIncrease { d with buffer := b } d.buffer.length = .ok d' ∧ d'.Inv ∧
      d'.toList = d.toList ∧ d'.len = d.len ∧ d'.buffer.length = b.length := by
  have hh := h
  obtain ⟨h1, h2, h3, h4⟩ := h
  have hl := toList_length hh
  have u1 : usizeSub d.buffer.length d.len = d.buffer.length - d.len := by unfold usizeSub; omega
  have u2 : usizeSub d.buffer.length d.head = d.buffer.length - d.head := by unfold usizeSub; omega
  have u4 : usizeSub b.length d.buffer.length = b.length - d.buffer.length := by unfold usizeSub; omega
  unfold handleCapacityIncrease
  simp only
  rw [if_neg (by omega), u1, u2, u4]
  by_cases hA : d.head ≤ d.buffer.length - d.len
  · rw [if_pos hA]
    have hInv : Inv { d with buffer := b } := ⟨by simp only; omega, hsm, by simp only; omega, by simp only; omega⟩
    refine ⟨_, rfl, hInv, ?_, rfl, rfl⟩
    refine toList_eq hInv (by rw [hl]) ?_
    intro i hi
    simp only at hi ⊢
    rw [toList_getElem? hh hi]
    unfold phys
    rw [if_neg (by omega), if_neg (by omega)]
    exact (hpre _ (by omega)).symm
  · rw [if_neg hA]
    have u3 : usizeSub d.len (d.buffer.length - d.head) = d.len - (d.buffer.length - d.head) := by
      unfold usizeSub; omega
    have u5 : usizeSub b.length (d.buffer.length - d.head) = b.length - (d.buffer.length - d.head) := by
      unfold usizeSub; omega
    rw [u3, u5]
    split
    · next hB =>
      obtain ⟨b', e, el, eg⟩ := copyRange_eq b 0 d.buffer.length (d.len - (d.buffer.length - d.head))
        (by omega) (by omega) hsm
      simp only [e, Go.bind_ok]
      have hInv : Inv { d with buffer := b' } :=
        ⟨by simp only; omega, by simp only; omega, by simp only; omega, by simp only; omega⟩
      refine ⟨_, rfl, hInv, ?_, rfl, el⟩
      refine toList_eq hInv (by rw [hl]) ?_
      intro i hi
      simp only at hi ⊢
      rw [toList_getElem? hh hi, eg]
      unfold phys
      by_cases hc : d.head + i ≥ d.buffer.length
      · have hno : ¬ (d.head + i ≥ b'.length) := by omega
        rw [if_pos hc, if_neg hno, if_pos (by omega), hpre _ (by omega)]
        congr 1; omega
      · have hno : ¬ (d.head + i ≥ b'.length) := by omega
        rw [if_neg hc, if_neg hno, if_neg (by omega), hpre _ (by omega)]
    · next hB =>
      obtain ⟨b', e, el, eg⟩ := copyRange_eq b d.head (b.length - (d.buffer.length - d.head))
        (d.buffer.length - d.head) (by omega) (by omega) hsm
      simp only [e, Go.bind_ok]
      have hInv : Inv (⟨b', d.len, b.length - (d.buffer.length - d.head)⟩ : VecDeque α) :=
        ⟨by simp only; omega, by simp only; omega, by simp only; omega, by simp only; omega⟩
      refine ⟨_, rfl, hInv, ?_, rfl, el⟩
      refine toList_eq hInv (by rw [hl]) ?_
      intro i hi
      simp only at hi ⊢
      rw [toList_getElem? hh hi, eg]
      unfold phys
      by_cases hc : d.head + i ≥ d.buffer.length
      · have hno : b.length - (d.buffer.length - d.head) + i ≥ b'.length := by omega
        rw [if_pos hc, if_pos hno, if_neg (by omega), hpre _ (by omega)]
        congr 1; omega
      · have hno : ¬ b.length - (d.buffer.length - d.head) + i ≥ b'.length := by omega
        rw [if_neg hc, if_neg hno, if_pos (by omega), hpre _ (by omega)]
        congr 1; omega

theorem remake_eq (b : List α) (n : Nat) (hn : b.length ≤ n) (hs : n < 2 ^ 63) :
    ∃ b', remake b n = .ok b' ∧ b'.length = n ∧ ∀ j, j < b.length → b'[j]? = b[j]? := by
  unfold remake makeLen
  rw [if_pos hs]
  simp only [Go.bind_ok]
  refine ⟨_, rfl, by simp; omega, ?_⟩
  intro j hj
  rw [List.getElem?_append_left (by simp; omega), List.getElem?_take_of_lt (by omega)]

theorem grow_eq {d : VecDeque α} (h : d.Inv) (hfull : d.len = d.buffer.length)
    (hs : 2 * d.buffer.length < 2 ^ 63) :
    ∃ d', d.grow = .ok d' ∧ d'.Inv ∧ d'.toList = d.toList ∧ d'.len = d.len ∧
      d'.buffer.length = 2 * d.buffer.length := by
  have h1 := h.pos
  unfold grow
  have hf : d.isFull = true := by simp [hfull]
  have u : usize (d.buffer.length * 2) = 2 * d.buffer.length := by unfold usize; omega
  rw [hf]
  simp only [Bool.not_true, Bool.false_eq_true, if_false, u]
  obtain ⟨b, e, el, eg⟩ := remake_eq d.buffer (2 * d.buffer.length) (by omega) hs
  simp only [e, Go.bind_ok]
  obtain ⟨d', e', i', t', l', b'⟩ := handleCapacityIncrease_eq h b (by omega) (by omega) eg
  simp only [e', Go.bind_ok]
  have : d'.isFull = false := by simp [l', b', el]; omega
  rw [this]
  exact ⟨d', rfl, i', t', l', by omega⟩

/-- Growing at 2^62 elements or more exceeds the address space. -/
theorem grow_alloc {d : VecDeque α} (hfull : d.len = d.buffer.length) (hsm : d.buffer.length < 2 ^ 63)
    (hs : 2 ^ 63 ≤ 2 * d.buffer.length) : d.grow = .error .makeLen := by
  unfold grow
  have hf : d.isFull = true := by simp [hfull]
  have u : usize (d.buffer.length * 2) = 2 * d.buffer.length := by unfold usize; omega
  rw [hf]
  simp only [Bool.not_true, Bool.false_eq_true, if_false, u]
  unfold remake makeLen
  rw [if_neg (by omega)]
  rfl

theorem room_eq {d : VecDeque α} (h : d.Inv) (hs : d.len < d.buffer.length ∨ 2 * d.len < 2 ^ 63) :
    ∃ d', d.growIfFull = .ok d' ∧ d'.Inv ∧ d'.toList = d.toList ∧
      d'.len = d.len ∧ d'.len < d'.buffer.length ∧
      d'.buffer.length = if d.len = d.buffer.length then 2 * d.len else d.buffer.length := by
  unfold growIfFull
  have h1 := h.pos
  have h3 := h.len_le
  by_cases hf : d.len = d.buffer.length
  · rw [if_pos (by simp [hf])]
    obtain ⟨d', a, b, c, e, f⟩ := grow_eq h hf (by omega)
    exact ⟨d', a, b, c, e, by omega, by rw [if_pos hf]; omega⟩
  · rw [if_neg (by simp [hf])]
    exact ⟨d, rfl, h, rfl, rfl, by omega, by rw [if_neg hf]⟩

theorem pushBack_eq {d : VecDeque α} (h : d.Inv) (hs : d.len < d.buffer.length ∨ 2 * d.len < 2 ^ 63)
    (v : α) :
    ∃ d', d.pushBack v = .ok d' ∧ d'.Inv ∧ d'.toList = d.toList ++ [v] ∧
      d'.buffer.length = if d.len = d.buffer.length then 2 * d.len else d.buffer.length := by
  unfold pushBack
  obtain ⟨e, he, ie, te, le, lt, cap⟩ := room_eq h hs
  simp only [he, Go.bind_ok]
  have hl := toList_length ie
  have hp := toPhysicalIndex_eq ie (i := e.len) (by omega)
  have hpl := phys_lt ie (i := e.len) (by omega)
  rw [setIndex_lt (by rw [hp]; exact hpl)]
  simp only [Go.bind_ok]
  obtain ⟨h1, h2, h3, h4⟩ := ie
  have u : usize (e.len + 1) = e.len + 1 := by unfold usize; omega
  rw [u]
  have hInv : Inv (⟨e.buffer.set (e.toPhysicalIndex e.len) v, e.len + 1, e.head⟩ : VecDeque α) :=
    ⟨by simpa using h1, by simpa using h2, by simp; omega, by simpa using h4⟩
  refine ⟨_, rfl, hInv, ?_, by simpa using cap⟩
  refine toList_eq hInv (by simp [← te, hl]) ?_
  intro i hi
  simp only at hi ⊢
  rw [List.length_set, hp, ← te]
  by_cases hil : i = e.len
  · subst hil
    rw [List.getElem?_set_self hpl, List.getElem?_append_right (by omega)]
    simp [hl]
  · rw [List.getElem?_append_left (by omega), toList_getElem? ⟨h1, h2, h3, h4⟩ (by omega),
      List.getElem?_set_ne]
    unfold phys
    split <;> split <;> omega

theorem pushFront_eq {d : VecDeque α} (h : d.Inv) (hs : d.len < d.buffer.length ∨ 2 * d.len < 2 ^ 63)
    (v : α) :
    ∃ d', d.pushFront v = .ok d' ∧ d'.Inv ∧ d'.toList = v :: d.toList ∧
      d'.buffer.length = if d.len = d.buffer.length then 2 * d.len else d.buffer.length := by
  unfold pushFront
  obtain ⟨e, he, ie, te, le, lt, cap⟩ := room_eq h hs
  simp only [he, Go.bind_ok]
  have hl := toList_length ie
  obtain ⟨h1, h2, h3, h4⟩ := ie
  have hw : e.wrapSub e.head 1 = if e.head = 0 then e.buffer.length - 1 else e.head - 1 := by
    unfold wrapSub wrapIndex usize usizeSub
    by_cases h0 : e.head = 0
    · have e1 : ((e.head + 2 ^ 64 - 1) % 2 ^ 64 + e.buffer.length) % 2 ^ 64 = e.buffer.length - 1 := by omega
      rw [e1, if_neg (by omega), if_pos h0]
    · have e1 : ((e.head + 2 ^ 64 - 1) % 2 ^ 64 + e.buffer.length) % 2 ^ 64 = e.head - 1 + e.buffer.length := by
        omega
      rw [e1, if_pos (by omega), if_neg h0]
      omega
  have hwl : e.wrapSub e.head 1 < e.buffer.length := by rw [hw]; split <;> omega
  rw [setIndex_lt hwl]
  simp only [Go.bind_ok]
  have u : usize (e.len + 1) = e.len + 1 := by unfold usize; omega
  rw [u]
  have hInv : Inv (⟨e.buffer.set (e.wrapSub e.head 1) v, e.len + 1, e.wrapSub e.head 1⟩ : VecDeque α) :=
    ⟨by simpa using h1, by simpa using h2, by simp; omega, by simpa using hwl⟩
  refine ⟨_, rfl, hInv, ?_, by simpa using cap⟩
  refine toList_eq hInv (by simp [← te, hl]) ?_
  intro i hi
  simp only at hi ⊢
  rw [List.length_set, ← te]
  cases i with
  | zero =>
    have : phys e.buffer.length (e.wrapSub e.head 1) 0 = e.wrapSub e.head 1 := by
      unfold phys; rw [if_neg (by omega)]; omega
    rw [this, List.getElem?_set_self hwl]
    simp
  | succ i =>
    have e1 : phys e.buffer.length (e.wrapSub e.head 1) (i + 1) = phys e.buffer.length e.head i := by
      rw [hw]; unfold phys
      split <;> split <;> split <;> omega
    rw [e1, List.getElem?_cons_succ, toList_getElem? ⟨h1, h2, h3, h4⟩ (by omega), List.getElem?_set_ne]
    rw [hw]
    unfold phys
    split <;> split <;> omega

theorem popFront_eq {d : VecDeque α} (h : d.Inv) :
    ∃ d', d.popFront = .ok (d', ⟨d.toList.head?⟩) ∧ d'.Inv ∧ d'.toList = d.toList.tail ∧
      d'.buffer = d.buffer := by
  have hl := toList_length h
  have hh := h
  obtain ⟨h1, h2, h3, h4⟩ := h
  unfold popFront isEmpty
  by_cases h0 : d.len = 0
  · have : d.toList = [] := List.eq_nil_of_length_eq_zero (by omega)
    rw [if_pos (by simp [h0])]
    exact ⟨d, by rw [this]; rfl, hh, by rw [this]; rfl, rfl⟩
  · rw [if_neg (by simp [h0])]
    have p0 : index d.buffer d.head = .ok (d.toList[0]'(by omega)) := by
      have := index_phys hh (i := 0) (by omega)
      rwa [toPhysicalIndex_eq hh (by omega), phys, if_neg (by omega), Nat.add_zero] at this
    simp only [p0, Go.bind_ok]
    have u : usizeSub d.len 1 = d.len - 1 := by unfold usizeSub; omega
    rw [u]
    have hp := toPhysicalIndex_eq hh (i := 1) (by omega)
    have hpl := phys_lt hh (i := 1) (by omega)
    have hInv : Inv (⟨d.buffer, d.len - 1, d.toPhysicalIndex 1⟩ : VecDeque α) :=
      ⟨h1, h2, by simp only; omega, by simp only; rw [hp]; exact hpl⟩
    have eh : d.toList.head? = some (d.toList[0]'(by omega)) := by
      rw [List.head?_eq_getElem?, List.getElem?_eq_getElem]
    rw [eh]
    refine ⟨_, rfl, hInv, ?_, rfl⟩
    · refine toList_eq hInv (by simp [hl]) ?_
      intro i hi
      simp only at hi ⊢
      have ei : phys d.buffer.length d.head (i + 1) =
          phys d.buffer.length (phys d.buffer.length d.head 1) i := by
        unfold phys
        split <;> split <;> split <;> omega
      rw [List.getElem?_tail, toList_getElem? hh (by omega), hp, ei]

theorem popBack_eq {d : VecDeque α} (h : d.Inv) :
    ∃ d', d.popBack = .ok (d', ⟨d.toList.getLast?⟩) ∧ d'.Inv ∧ d'.toList = d.toList.dropLast ∧
      d'.buffer = d.buffer := by
  have hl := toList_length h
  have hh := h
  obtain ⟨h1, h2, h3, h4⟩ := h
  unfold popBack isEmpty
  by_cases h0 : d.len = 0
  · have : d.toList = [] := List.eq_nil_of_length_eq_zero (by omega)
    rw [if_pos (by simp [h0])]
    exact ⟨d, by rw [this]; rfl, hh, by rw [this]; rfl, rfl⟩
  · rw [if_neg (by simp [h0])]
    have u : usizeSub d.len 1 = d.len - 1 := by unfold usizeSub; omega
    simp only [u]
    have hInv : Inv (⟨d.buffer, d.len - 1, d.head⟩ : VecDeque α) :=
      ⟨h1, h2, by simp only; omega, h4⟩
    have ep : ({ d with len := d.len - 1 } : VecDeque α).toPhysicalIndex (d.len - 1) =
        d.toPhysicalIndex (d.len - 1) := rfl
    rw [ep, index_phys hh (by omega)]
    simp only [Go.bind_ok]
    have eh : d.toList.getLast? = some (d.toList[d.len - 1]'(by omega)) := by
      rw [List.getLast?_eq_getElem?, List.getElem?_eq_getElem (by omega)]
      simp only [hl]
    rw [eh]
    refine ⟨_, rfl, hInv, ?_, rfl⟩
    · refine toList_eq hInv (by simp [hl]) ?_
      intro i hi
      simp only at hi ⊢
      rw [List.getElem?_dropLast, if_pos (by omega), toList_getElem? hh (by omega)]

theorem reserve_eq {d : VecDeque α} (h : d.Inv) (n : Nat) (hs : d.buffer.length + n < 2 ^ 63) :
    ∃ d', d.reserve n = .ok d' ∧ d'.Inv ∧ d'.toList = d.toList ∧
      d'.buffer.length = d.buffer.length + n := by
  unfold reserve
  have u : usize (d.buffer.length + n) = d.buffer.length + n := by unfold usize; omega
  simp only [capacity, u]
  by_cases h0 : n = 0
  · subst h0
    rw [if_neg (by omega)]
    exact ⟨d, rfl, h, rfl, rfl⟩
  · rw [if_pos (by omega)]
    obtain ⟨b, e, el, eg⟩ := remake_eq d.buffer (d.buffer.length + n) (by omega) hs
    simp only [e, Go.bind_ok]
    obtain ⟨d', e', i', t', l', b'⟩ := handleCapacityIncrease_eq h b (by omega) (by omega) eg
    exact ⟨d', e', i', t', by omega⟩

theorem appendLoop_eq {o : VecDeque α} (ho : o.Inv) (n i : Nat) (hn : i + n = o.len) {d : VecDeque α}
    (h : d.Inv) (hs : d.len + n ≤ d.buffer.length) :
    ∃ d', appendLoop o n i d = .ok d' ∧ d'.Inv ∧ d'.toList = d.toList ++ o.toList.drop i ∧
      d'.buffer.length = d.buffer.length := by
  have hlo := toList_length ho
  induction n generalizing i d with
  | zero =>
    refine ⟨d, rfl, h, ?_, rfl⟩
    rw [List.drop_of_length_le (by omega), List.append_nil]
  | succ n ih =>
    simp only [appendLoop]
    rw [getUnchecked_eq ho (by omega)]
    simp only [Go.bind_ok]
    obtain ⟨d1, e1, i1, t1, c1⟩ := pushBack_eq h (by omega) (o.toList[i]'(by omega))
    rw [if_neg (by omega)] at c1
    simp only [e1, Go.bind_ok]
    have l1 : d1.len = d.len + 1 := by
      have a := toList_length i1
      have b := toList_length h
      rw [t1] at a; simp at a; omega
    obtain ⟨d2, e2, i2, t2, c2⟩ := ih (i + 1) (by omega) i1 (by omega)
    refine ⟨d2, e2, i2, ?_, by omega⟩
    rw [t2, t1, List.append_assoc, List.singleton_append, ← List.drop_eq_getElem_cons]

/-- Cutting the length cuts the list. -/
theorem cut_eq {d : VecDeque α} (h : d.Inv) {m : Nat} (hm : m ≤ d.len) :
    Inv { d with len := m } ∧ toList { d with len := m } = d.toList.take m := by
  obtain ⟨h1, h2, h3, h4⟩ := h
  refine ⟨⟨h1, h2, by simp only; omega, h4⟩, ?_⟩
  unfold toList
  simp only [List.take_take]
  rw [Nat.min_eq_left hm]

/-- Element `k` replaced, without the bounds check. -/
def put (d : VecDeque α) (k : Nat) (v : α) : VecDeque α :=
  { d with buffer := d.buffer.set (d.toPhysicalIndex k) v }

theorem put_eq {d : VecDeque α} (h : d.Inv) {k : Nat} (hk : k < d.len) (v : α) :
    d.setUnchecked k v = .ok (d.put k v) ∧ (d.put k v).Inv ∧ (d.put k v).toList = d.toList.set k v ∧
      (d.put k v).len = d.len ∧ (d.put k v).buffer.length = d.buffer.length := by
  have h3 := h.len_le
  refine ⟨?_, (set_phys h hk v).1, (set_phys h hk v).2, rfl, by simp [put]⟩
  unfold setUnchecked
  rw [setIndex_lt (by rw [toPhysicalIndex_eq h (by omega)]; exact phys_lt h (by omega))]
  rfl

/-- What the Retain loop does to the deque, given the answers of the predicate. -/
def retainD : List α → List Bool → Nat → VecDeque α → VecDeque α
  | v :: vs, b :: ms, k, d => if b then retainD vs ms (k + 1) (d.put k v) else retainD vs ms k d
  | _, _, _, d => d

open Spec in
theorem retainLoop_eq (f : α → Eff σ Bool) (vs : List α) (i k : Nat) (d : VecDeque α) (h : d.Inv)
    (hvs : vs = d.toList.drop i) (hk : k ≤ i) (hi : i ≤ d.len) :
    retainLoop f vs.length i k d =
      mapE f vs >>= fun ms => pure (k + (select vs ms).length, retainD vs ms k d) := by
  have hl := toList_length h
  induction vs generalizing i k d with
  | nil => simp [retainLoop, mapE, retainD]
  | cons v vs ih =>
    have hlen := congrArg List.length hvs
    simp at hlen
    have hil : i < d.toList.length := by omega
    rw [List.drop_eq_getElem_cons hil] at hvs
    injection hvs with hv hvs
    simp only [List.length_cons, retainLoop, mapE, LawfulMonad.bind_assoc, Eff.pure_bind]
    rw [getUnchecked_eq h hil, ← hv]
    simp only [Eff.lift_ok, Eff.pure_bind]
    congr 1
    funext b
    cases b with
    | true =>
      obtain ⟨p1, p2, p3, p4, p5⟩ := put_eq h (k := k) (by omega) v
      simp only [if_true, p1, Eff.lift_ok, Eff.pure_bind]
      rw [ih (i + 1) (k + 1) (d.put k v) p2 (by rw [p3, List.drop_set_of_lt (by omega)]; exact hvs)
        (by omega) (by omega) (toList_length p2)]
      congr 1
      funext ms
      simp only [retainD, if_true, select_cons, List.length_cons]
      rw [show k + 1 + (select vs ms).length = k + ((select vs ms).length + 1) by omega]
    | false =>
      simp only [Bool.false_eq_true, if_false]
      rw [ih (i + 1) k d h hvs (by omega) (by omega) hl]
      simp [retainD]

open Spec in
theorem select_length_le (l : List α) (ms : List Bool) : (select l ms).length ≤ l.length := by
  simp only [select, List.length_map]
  exact Nat.le_trans (List.length_filter_le _ _) (by simp; omega)

open Spec in
theorem retainD_eq (vs : List α) (ms : List Bool) (k : Nat) (d : VecDeque α) (h : d.Inv)
    (hm : ms.length = vs.length) (hk : k + vs.length ≤ d.len) :
    (retainD vs ms k d).Inv ∧ (retainD vs ms k d).len = d.len ∧
      (retainD vs ms k d).buffer.length = d.buffer.length ∧
      (retainD vs ms k d).toList.take (k + (select vs ms).length) = d.toList.take k ++ select vs ms := by
  have hl := toList_length h
  induction vs generalizing ms k d with
  | nil => cases ms <;> simp [retainD, h]
  | cons v vs ih =>
    cases ms with
    | nil => simp at hm
    | cons b ms =>
      simp only [List.length_cons] at hm hk
      cases b with
      | true =>
        obtain ⟨p1, p2, p3, p4, p5⟩ := put_eq h (k := k) (by omega) v
        obtain ⟨a1, a2, a3, a4⟩ := ih ms (k + 1) (d.put k v) p2 (by omega) (by omega) (toList_length p2)
        simp only [retainD, if_true, select_cons, List.length_cons]
        refine ⟨a1, by omega, by omega, ?_⟩
        rw [Nat.add_comm (select vs ms).length 1, ← Nat.add_assoc, a4, p3, List.take_add_one,
          List.getElem?_set_self (by omega), List.take_set_of_le (by omega)]
        simp
      | false =>
        simp only [retainD, Bool.false_eq_true, if_false, select_cons]
        exact ih ms k d h (by omega) (by omega) hl

open Spec in
/-- Retain calls the predicate once per element in order and keeps the accepted ones. -/
theorem retain_eq (d : VecDeque α) (h : d.Inv) (f : α → Eff σ Bool) :
    ∃ D : List Bool → VecDeque α, d.retain f = (mapE f d.toList >>= fun ms => pure (D ms)) ∧
      ∀ ms, ms.length = d.len → (D ms).Inv ∧ (D ms).toList = select d.toList ms ∧
        (D ms).buffer.length = d.buffer.length := by
  have hl := toList_length h
  refine ⟨fun ms => { retainD d.toList ms 0 d with len := (select d.toList ms).length }, ?_, ?_⟩
  · unfold retain
    have := retainLoop_eq f d.toList 0 0 d h (by simp) (Nat.le_refl _) (Nat.zero_le _)
    rw [hl] at this
    rw [this]
    simp only [LawfulMonad.bind_assoc, Eff.pure_bind, Nat.zero_add]
  · intro ms hms
    obtain ⟨a1, a2, a3, a4⟩ := retainD_eq d.toList ms 0 d h (by omega) (by omega)
    have hle := select_length_le d.toList ms
    obtain ⟨b1, b2⟩ := cut_eq a1 (m := (select d.toList ms).length) (by omega)
    refine ⟨b1, ?_, a3⟩
    rw [b2]
    simpa using a4

theorem fillLoop_eq (v : α) (n i : Nat) (d : VecDeque α) (h : d.Inv) (hi : i + n = d.len) :
    ∃ d', fillLoop v n i d = .ok d' ∧ d'.Inv ∧ d'.toList = d.toList.take i ++ List.replicate n v ∧
      d'.buffer.length = d.buffer.length := by
  have hl := toList_length h
  induction n generalizing i d with
  | zero => exact ⟨d, rfl, h, by simp; rw [List.take_of_length_le (by omega)], rfl⟩
  | succ n ih =>
    obtain ⟨p1, p2, p3, p4, p5⟩ := put_eq h (k := i) (by omega) v
    simp only [fillLoop, p1, Go.bind_ok]
    obtain ⟨d', a, b, c, e⟩ := ih (i + 1) (d.put i v) p2 (by omega) (toList_length p2)
    refine ⟨d', a, b, ?_, by omega⟩
    rw [c, p3, List.take_add_one, List.getElem?_set_self (by omega), List.take_set_of_le (by omega)]
    simp [List.replicate_succ]

/-- The deque after FillWith stored the values `xs` from position `i` on. -/
def fillD : List α → Nat → VecDeque α → VecDeque α
  | [], _, d => d
  | x :: xs, i, d => fillD xs (i + 1) (d.put i x)

open Spec in
theorem fillWithLoop_eq (f : Eff σ α) (m : List α) (i : Nat) (d : VecDeque α) (h : d.Inv)
    (hi : i + m.length = d.len) :
    fillWithLoop f m.length i d = mapE (fun _ => f) m >>= fun xs => pure (fillD xs i d) := by
  induction m generalizing i d with
  | nil => rfl
  | cons a m ih =>
    simp only [List.length_cons] at hi
    simp only [List.length_cons, fillWithLoop, mapE, LawfulMonad.bind_assoc, Eff.pure_bind]
    congr 1
    funext x
    obtain ⟨p1, p2, p3, p4, p5⟩ := put_eq h (k := i) (by omega) x
    simp only [p1, Eff.lift_ok, Eff.pure_bind]
    rw [ih (i + 1) (d.put i x) p2 (by omega)]
    simp [fillD]

theorem fillD_eq (xs : List α) (i : Nat) (d : VecDeque α) (h : d.Inv) (hi : i + xs.length = d.len) :
    (fillD xs i d).Inv ∧ (fillD xs i d).toList = d.toList.take i ++ xs := by
  have hl := toList_length h
  induction xs generalizing i d with
  | nil =>
    simp at hi
    exact ⟨h, by simp only [fillD, List.append_nil]; rw [List.take_of_length_le (by omega)]⟩
  | cons x xs ih =>
    simp only [List.length_cons] at hi
    obtain ⟨p1, p2, p3, p4, p5⟩ := put_eq h (k := i) (by omega) x
    obtain ⟨a, b⟩ := ih (i + 1) (d.put i x) p2 (by omega) (toList_length p2)
    refine ⟨a, ?_⟩
    simp only [fillD]
    rw [b, p3, List.take_add_one, List.getElem?_set_self (by omega), List.take_set_of_le (by omega)]
    simp

open Spec in
theorem pushAllLoop_eq (step : α → VecDeque α → Eff σ (VecDeque α)) (src : VecDeque α) (h : src.Inv)
    (n i : Nat) (hi : i + n = src.len) (dst : VecDeque α) :
    pushAllLoop step src n i dst = foldE (fun d v => step v d) dst (src.toList.drop i) := by
  have hl := toList_length h
  induction n generalizing i dst with
  | zero =>
    rw [List.drop_of_length_le (by omega)]
    rfl
  | succ n ih =>
    have hil : i < src.toList.length := by omega
    rw [List.drop_eq_getElem_cons hil]
    simp only [pushAllLoop, get_eq h, Eff.lift_ok, Eff.pure_bind, Opt.unwrap,
      List.getElem?_eq_getElem hil, deref_some, foldE]
    congr 1
    funext d
    exact ih (i + 1) (by omega) d

/-- Push a list of values (used only where there is room). -/
def pushL (d : VecDeque α) : List α → VecDeque α
  | [] => d
  | y :: ys => pushL (match d.pushBack y with | .ok d => d | .error _ => d) ys

theorem push_room {d : VecDeque α} (h : d.Inv) (hs : d.len < d.buffer.length) (v : α) :
    ∃ d', d.pushBack v = .ok d' ∧ d'.Inv ∧ d'.toList = d.toList ++ [v] ∧ d'.len = d.len + 1 ∧
      d'.buffer.length = d.buffer.length := by
  obtain ⟨d', a, b, c, e⟩ := pushBack_eq h (.inl hs) v
  rw [if_neg (by omega)] at e
  refine ⟨d', a, b, c, ?_, e⟩
  have x := toList_length b
  have y := toList_length h
  rw [c] at x; simp at x; omega

theorem pushL_eq (ys : List α) (d : VecDeque α) (h : d.Inv) (hs : d.len + ys.length ≤ d.buffer.length) :
    (d.pushL ys).Inv ∧ (d.pushL ys).toList = d.toList ++ ys := by
  induction ys generalizing d with
  | nil => exact ⟨h, by simp [pushL]⟩
  | cons y ys ih =>
    simp only [List.length_cons] at hs
    obtain ⟨d', a, b, c, e, f⟩ := push_room h (by omega) y
    simp only [pushL, a]
    obtain ⟨i1, i2⟩ := ih d' b (by omega)
    exact ⟨i1, by rw [i2, c]; simp⟩

open Spec in
theorem foldE_pushBack (f : α → Eff σ α) (l : List α) (d : VecDeque α) (h : d.Inv)
    (hs : d.len + l.length ≤ d.buffer.length) :
    foldE (fun d v => do let y ← f v; Eff.lift (d.pushBack y)) d l =
      mapE f l >>= fun ys => pure (d.pushL ys) := by
  induction l generalizing d with
  | nil => rfl
  | cons a l ih =>
    simp only [List.length_cons] at hs
    simp only [foldE, mapE, LawfulMonad.bind_assoc, Eff.pure_bind]
    congr 1
    funext y
    obtain ⟨d', p, q, _, e, c⟩ := push_room h (by omega) y
    simp only [p, Eff.lift_ok, Eff.pure_bind]
    rw [ih d' q (by omega)]
    simp only [pushL, p]

open Spec in
theorem foldE_pushBackIf (f : α → Eff σ Bool) (l : List α) (d : VecDeque α) (h : d.Inv)
    (hs : d.len + l.length ≤ d.buffer.length) :
    foldE (fun d v => do
        let b ← f v
        if b then Eff.lift (d.pushBack v) else pure d) d l =
      mapE f l >>= fun ms => pure (d.pushL (select l ms)) := by
  induction l generalizing d with
  | nil => rfl
  | cons a l ih =>
    simp only [List.length_cons] at hs
    simp only [foldE, mapE, LawfulMonad.bind_assoc, Eff.pure_bind]
    congr 1
    funext b
    cases b with
    | true =>
      obtain ⟨d', p, q, _, e, c⟩ := push_room h (by omega) a
      simp only [p, if_true, Eff.lift_ok, Eff.pure_bind]
      rw [ih d' q (by omega)]
      simp only [select_cons, if_true, pushL, p]
    | false =>
      simp only [Bool.false_eq_true, if_false, Eff.pure_bind]
      rw [ih d h (by omega)]
      simp only [select_cons, Bool.false_eq_true, if_false]

theorem withCapacity_eq (n : Nat) (hn : n < 2 ^ 63) :
    ∃ d : VecDeque α, withCapacity n = .ok d ∧ d.Inv ∧ d.toList = [] ∧ d.len = 0 ∧
      d.buffer.length = max n 1 := by
  unfold withCapacity makeLen
  by_cases h1 : n < 1
  · rw [if_pos h1]
    simp only
    rw [if_pos (by omega)]
    exact ⟨_, rfl, ⟨by simp, by simp, by simp, by simp⟩, by simp [toList], rfl, by simp; omega⟩
  · rw [if_neg h1]
    simp only
    rw [if_pos hn]
    exact ⟨_, rfl, ⟨by simp; omega, by simp; omega, by simp, by simp; omega⟩, by simp [toList], rfl,
      by simp; omega⟩

end Gost.VecDeque
