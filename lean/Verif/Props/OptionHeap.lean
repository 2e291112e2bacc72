import Verif.Model.OptionHeap
/-
Property C88: which options share storage.
-/
namespace Gost
namespace POpt
variable {α : Type u}

/-- The value an option denotes in a heap. -/
def denote (h : OHeap α) (o : POpt) : Option α := o.ptr.bind (h[·]?)

/-- The option points into the heap (every option built by the library does). -/
def Valid (h : OHeap α) (o : POpt) : Prop := ∀ a, o.ptr = .some a → a < h.length

theorem denote_append (h l : OHeap α) (o : POpt) (hv : Valid h o) : denote (h ++ l) o = denote h o := by
  obtain ⟨_ | a⟩ := o
  · rfl
  · have := hv a rfl
    show (h ++ l)[a]? = h[a]?
    rw [List.getElem?_append_left this]

theorem load_denote (h : OHeap α) (o : POpt) (v : α) : load h o.ptr = .ok v ↔ denote h o = .some v := by
  obtain ⟨_ | a⟩ := o
  · simp [load, denote]
  · simp only [load, denote, Option.bind_some]
    cases h[a]? <;> simp

end POpt
open POpt
variable {α : Type u}

/-- C88: Insert, GetOrInsert, Take and Replace applied to one option never change what any other option
denotes, even if it is a copy made earlier; and the changed option and the result denote what the
documentation says. -/
theorem C88_option_copies_independent (h : OHeap α) (o c : POpt) (ho : Valid h o) (hc : Valid h c)
    (v : α) :
    (∀ h' o' p, POpt.insert h o v = (h', o', p) →
      denote h' c = denote h c ∧ denote h' o' = some v ∧ Valid h' o') ∧
    (∀ h' o' p, POpt.getOrInsert h o v = (h', o', p) →
      denote h' c = denote h c ∧ denote h' o' = some ((denote h o).getD v) ∧ Valid h' o') ∧
    (∃ h' o' r, POpt.take h o = .ok (h', o', r) ∧
      denote h' c = denote h c ∧ denote h' o' = none ∧ denote h' r = denote h o) ∧
    (∃ h' o' r, POpt.replace h o v = .ok (h', o', r) ∧ denote h' c = denote h c ∧
      denote h' r = denote h o ∧ (denote h o ≠ none → denote h' o' = some v)) := by
  refine ⟨?_, ?_, ?_, ?_⟩
  · rintro h' o' p he
    cases he
    exact ⟨denote_append _ _ _ hc, by simp [denote], by intro a ha; cases ha; simp⟩
  · rintro h' o' p he
    obtain ⟨_ | a⟩ := o
    · cases he
      exact ⟨denote_append _ _ _ hc, by simp [denote], by intro a ha; cases ha; simp⟩
    · cases he
      have := ho a rfl
      refine ⟨rfl, ?_, ho⟩
      simp [denote, List.getElem?_eq_getElem this]
  · obtain ⟨_ | a⟩ := o
    · exact ⟨_, _, _, rfl, rfl, rfl, rfl⟩
    · have := ho a rfl
      simp only [POpt.take, load, List.getElem?_eq_getElem this, Go.bind_ok, POpt.some, alloc]
      refine ⟨_, _, _, rfl, denote_append _ _ _ hc, rfl, ?_⟩
      simp [denote, List.getElem?_eq_getElem this]
  · obtain ⟨_ | a⟩ := o
    · exact ⟨_, _, _, rfl, rfl, rfl, fun h => absurd rfl h⟩
    · have := ho a rfl
      simp only [POpt.replace, load, List.getElem?_eq_getElem this, Go.bind_ok, POpt.some, alloc]
      refine ⟨_, _, _, rfl, ?_, ?_, ?_⟩
      · rw [List.append_assoc]; exact denote_append _ _ _ hc
      · simp [denote, List.getElem?_eq_getElem this]
      · intro _; simp [denote]

/-- C88: the pointer returned by Insert and GetOrInsert really refers to the option's content: writing
through it changes the option to the written value; after Insert it changes no other option. -/
theorem C88_option_pointer_refers (h : OHeap α) (o c : POpt) (ho : Valid h o) (hc : Valid h c)
    (v w : α) :
    (∀ h' o' p, POpt.insert h o v = (h', o', p) → ∃ h'', POpt.store h' p w = .ok h'' ∧
      denote h'' o' = some w ∧ denote h'' c = denote h c) ∧
    (∀ h' o' p, POpt.getOrInsert h o v = (h', o', p) → ∃ h'', POpt.store h' p w = .ok h'' ∧
      denote h'' o' = some w ∧ (c.ptr ≠ o.ptr → denote h'' c = denote h c)) := by
  have key : ∀ (o' : POpt) (b : Nat), o'.ptr ≠ .some b → ∀ h : OHeap α,
      denote (h.set b w) o' = denote h o' := by
    intro o' b hb h
    obtain ⟨_ | a⟩ := o'
    · rfl
    · have : a ≠ b := fun e => hb (by rw [e])
      simp [denote, List.getElem?_set, Ne.symm this]
  have fresh : c.ptr ≠ .some h.length := fun e => by have := hc _ e; omega
  constructor
  · rintro h' o' p he
    cases he
    refine ⟨_, rfl, by simp [denote], ?_⟩
    rw [key _ _ fresh, denote_append _ _ _ hc]
  · rintro h' o' p he
    obtain ⟨_ | a⟩ := o
    · cases he
      refine ⟨_, rfl, by simp [denote], fun _ => ?_⟩
      rw [key _ _ fresh, denote_append _ _ _ hc]
    · cases he
      have := ho a rfl
      exact ⟨_, rfl, by simp [denote, this], fun hne => key _ _ hne h⟩

/-- C88: Unwrap reads the value the option denotes and panics exactly on None; after Insert it gives the inserted
value, also through a copy of the option made after the Insert, while copies made before give what they gave. -/
theorem C88_option_unwrap (h : OHeap α) (o c : POpt) (hc : Valid h c) (v : α) :
    (∀ x, POpt.unwrap h o = .ok x ↔ denote h o = some x) ∧
    ((∃ p, POpt.unwrap h o = .error p) ↔ denote h o = none) ∧
    (∀ h' o' p, POpt.insert h o v = (h', o', p) → POpt.unwrap h' o' = .ok v ∧ POpt.unwrap h' c = POpt.unwrap h c) := by
  have key : ∀ (g : OHeap α) (q : POpt), ((∃ p, POpt.unwrap g q = .error p) ↔ denote g q = none) := by
    intro g q
    have e := fun x => load_denote g q x
    unfold POpt.unwrap
    cases hl : load g q.ptr with
    | ok x => simp [(e x).1 hl]
    | error p =>
      refine ⟨fun _ => ?_, fun _ => ⟨p, rfl⟩⟩
      cases hd : denote g q with
      | none => rfl
      | some x => rw [(e x).2 hd] at hl; cases hl
  refine ⟨fun x => load_denote h o x, key h o, ?_⟩
  rintro h' o' p he
  cases he
  refine ⟨(load_denote _ _ _).2 (by simp [denote]), ?_⟩
  obtain ⟨_ | a⟩ := c
  · rfl
  · have := hc a rfl
    show load (h ++ [v]) _ = load h _
    simp only [load]
    rw [List.getElem?_append_left this]

example : POpt.unwrap [7, 8] ⟨some 1⟩ = .ok 8 ∧ (∃ p, POpt.unwrap [7, 8] ⟨none⟩ = .error p) := ⟨rfl, _, rfl⟩

/-- Two copies sharing a cell: Replace on one leaves the other, a write through GetOrInsert's pointer
changes both. -/
example :
    POpt.replace [7] ⟨some 0⟩ 9 = .ok ([7, 9, 7], ⟨some 1⟩, ⟨some 2⟩) ∧
    denote [7, 9, 7] ⟨some 0⟩ = some 7 ∧
    POpt.getOrInsert [7] ⟨some 0⟩ 9 = ([7], ⟨some 0⟩, some 0) ∧
    POpt.store [7] (some 0) 5 = .ok [5] := by decide

end Gost
