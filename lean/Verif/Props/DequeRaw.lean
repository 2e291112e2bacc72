import Verif.Props.VecDeque
/-
Properties C59 and C60 for deques whose head is not at the start of the buffer.
-/
namespace Gost
open Spec VecDeque
variable {α : Type} [Inhabited α]

omit [Inhabited α] in
theorem VecDeque.toList_head {d : VecDeque α} (h : d.Inv) (hl : 0 < d.len) : d.toList[0]? = d.buffer[d.head]? := by
  have := h.head_lt
  unfold toList
  rw [List.getElem?_take_of_lt hl, List.getElem?_append_left (by simp; omega)]
  simp

omit [Inhabited α] in
/-- C59 fails on every deque whose first element is not also in the first slot of the buffer. -/
theorem C59_asSlice_head_fails (d : VecDeque α) (h : d.Inv) (hl : 0 < d.len) (hb : d.buffer[0]? ≠ d.buffer[d.head]?) :
    d.asSlice ≠ .ok d.toList := by
  intro e
  have h3 := h.len_le
  unfold asSlice at e
  rw [if_pos h3] at e
  injection e with e
  apply hb
  rw [← toList_head h hl, ← e, List.getElem?_take_of_lt hl]

omit [Inhabited α] in
/-- C60 fails: Sort and its variants do not change a deque at all that lies without a break behind its own
length in the buffer. -/
theorem C60_sort_behind_fails (S : SortLib) (cmp : α → α → Ordering) (d : VecDeque α) (h : d.Inv)
    (h1 : d.len ≤ d.head) (h2 : d.head + d.len ≤ d.buffer.length) :
    (∃ d', d.sort S (some cmp) = .ok d' ∧ d.sortBy S cmp = .ok d' ∧ d'.toList = d.toList) ∧
    (∃ d', d.sortUnstable S (some cmp) = .ok d' ∧ d.sortUnstableBy S cmp = .ok d' ∧ d'.toList = d.toList) := by
  have h3 := h.len_le
  have key : ∀ b : List α, b.length = d.len →
      toList (⟨b ++ d.buffer.drop d.len, d.len, d.head⟩ : VecDeque α) = d.toList := by
    intro b hb
    unfold toList
    simp only
    have e : (b ++ d.buffer.drop d.len).drop d.head = d.buffer.drop d.head := by
      rw [List.drop_append, List.drop_of_length_le (by omega), List.nil_append, List.drop_drop]
      congr 1; omega
    rw [e, List.take_append_of_le_length (by simp; omega), List.take_append_of_le_length (by simp; omega)]
  have e1 : d.sortBy S cmp =
      .ok ⟨S.stable (Vec.less cmp) (d.buffer.take d.len) ++ d.buffer.drop d.len, d.len, d.head⟩ := by
    rw [VecDeque.sortBy, if_pos h3]
  have e2 : d.sortUnstableBy S cmp =
      .ok ⟨S.unstable (Vec.less cmp) (d.buffer.take d.len) ++ d.buffer.drop d.len, d.len, d.head⟩ := by
    rw [VecDeque.sortUnstableBy, if_pos h3]
  constructor
  · refine ⟨_, e1, e1, key _ ?_⟩
    rw [(S.stable_perm _ _).length_eq, List.length_take]; omega
  · refine ⟨_, e2, e2, key _ ?_⟩
    rw [(S.unstable_perm _ _).length_eq, List.length_take]; omega

omit [Inhabited α] in
/-- C60 fails: Sort of a full deque that does not begin at the start of the buffer gives a sorted deque only if all
elements are equal. -/
theorem C60_sort_full_fails (S : SortLib) (cmp : α → α → Ordering) (eq : α → α → Bool) (hc : LawfulOrd cmp eq)
    (d : VecDeque α) (h : d.Inv) (hf : d.len = d.buffer.length) (h0 : d.head ≠ 0) (x y : α) (hx : x ∈ d.toList)
    (hy : y ∈ d.toList) (hxy : cmp x y = .gt) :
    ∃ d', d.sort S (some cmp) = .ok d' ∧ d'.toList.Perm d.toList ∧ ¬ d'.toList.Pairwise (fun a b => cmp a b ≠ .gt) := by
  have h3 := h.len_le
  have h4 := h.head_lt
  have hall : ∀ b : List α, b.length = d.len →
      (⟨b, d.len, d.head⟩ : VecDeque α).toList = b.drop d.head ++ b.take d.head := by
    intro b hb
    unfold toList
    rw [List.take_of_length_le (by simp; omega)]
  have hd : d.toList = d.buffer.drop d.head ++ d.buffer.take d.head := hall d.buffer hf.symm
  obtain ⟨b, hb⟩ : ∃ b, b = S.stable (Vec.less cmp) (d.buffer.take d.len) := ⟨_, rfl⟩
  have hperm : b.Perm d.buffer := by
    have := S.stable_perm (Vec.less cmp) (d.buffer.take d.len)
    rw [← hb, List.take_of_length_le (by omega)] at this
    exact this
  have hsort : b.Pairwise (fun a b => cmp a b ≠ .gt) := by
    rw [hb]
    exact less_sorted cmp eq hc _ (S.stable_sorted _ _ (less_strictWeak cmp eq hc))
  have hbl : b.length = d.len := by rw [hperm.length_eq]; exact hf.symm
  have rot : ∀ l : List α, (l.drop d.head ++ l.take d.head).Perm l := by
    intro l
    have := List.perm_append_comm (l₁ := l.drop d.head) (l₂ := l.take d.head)
    rwa [List.take_append_drop] at this
  refine ⟨⟨b, d.len, d.head⟩, ?_, ?_, ?_⟩
  · show d.sortBy S cmp = _
    rw [VecDeque.sortBy, if_pos h3, ← hb, List.drop_of_length_le (by omega), List.append_nil]
  · rw [hall b hbl, hd]
    exact (rot b).trans (hperm.trans (rot _).symm)
  · rw [hall b hbl]
    intro hp
    rw [← List.take_append_drop d.head b] at hsort
    have up := (List.pairwise_append.1 hsort).2.2
    have down := (List.pairwise_append.1 hp).2.2
    have mem : ∀ z, z ∈ d.toList → z ∈ b.take d.head ∨ z ∈ b.drop d.head := by
      intro z hz
      have : z ∈ b := hperm.mem_iff.2 ((rot d.buffer).mem_iff.1 (by rw [← hd]; exact hz))
      rw [← List.take_append_drop d.head b] at this
      exact List.mem_append.1 this
    obtain ⟨p, hp⟩ : ∃ p, p ∈ b.take d.head := by
      apply List.exists_mem_of_length_pos; simp; omega
    obtain ⟨q, hq⟩ : ∃ q, q ∈ b.drop d.head := by
      apply List.exists_mem_of_length_pos; simp; omega
    rcases mem x hx with hx | hx <;> rcases mem y hy with hy | hy
    · exact hc.trans x q y (up x hx q hq) (down q hq y hy) hxy
    · exact up x hx y hy hxy
    · exact down x hx y hy hxy
    · exact hc.trans x p y (down x hx p hp) (up p hp y hy) hxy

/-- 4, 9, 3 behind two slots that were popped: AsSlice shows the popped slots, Sort does nothing. -/
example : (⟨[0, 0, 0, 4, 9, 3, 0], 3, 3⟩ : VecDeque Nat).asSlice ≠ .ok [4, 9, 3] :=
  C59_asSlice_head_fails (⟨[0, 0, 0, 4, 9, 3, 0], 3, 3⟩ : VecDeque Nat) ⟨by decide, by decide, by decide, by decide⟩
    (by decide) (by decide)
example : ∃ d', (⟨[0, 0, 0, 4, 9, 3, 0], 3, 3⟩ : VecDeque Nat).sort mergeSortLib (some compare) = .ok d' ∧
    d'.toList = [4, 9, 3] := by
  obtain ⟨⟨d', a, _, b⟩, _⟩ := C60_sort_behind_fails mergeSortLib compare (⟨[0, 0, 0, 4, 9, 3, 0], 3, 3⟩ : VecDeque Nat)
    ⟨by decide, by decide, by decide, by decide⟩ (by decide) (by decide)
  exact ⟨d', a, b⟩
/-- A full buffer 3, 1, 2 with the head at 1: sorted it is 2, 3, 1. -/
example : ∃ d', (⟨[3, 1, 2], 3, 1⟩ : VecDeque Nat).sort mergeSortLib (some compare) = .ok d' ∧
    ¬ d'.toList.Pairwise (fun a b => compare a b ≠ .gt) := by
  obtain ⟨d', a, _, b⟩ := C60_sort_full_fails mergeSortLib compare (· == ·) natCmp_lawful (⟨[3, 1, 2], 3, 1⟩ : VecDeque Nat)
    ⟨by decide, by decide, by decide, by decide⟩ rfl (by decide) 2 1 (by decide) (by decide) (by decide)
  exact ⟨d', a, b⟩
end Gost
