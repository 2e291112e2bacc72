import Verif.Model.Zero
import Verif.Props.Vec
import Verif.Props.VecDeque
import Verif.Props.LinkedList
import Verif.Props.BinaryHeap
import Verif.Props.HashSet
import Verif.Props.BTreeSet
/-
Property C150: a collection that was declared but not made by a constructor is an empty collection.
-/
set_option linter.unusedSectionVars false
namespace Gost
open Spec

/-! ### C150: the deque -/

/-- What an operation means for a deque without a buffer. -/
inductive Spec.BufferUse where
  /-- it needs room for an element -/
  | needs
  /-- it makes room -/
  | makes
  /-- it does neither -/
  | neither
  deriving DecidableEq

/-- Specification: PushFront and PushBack need room; Clear, Reserve(n) with n > 0 and Append of a deque with
elements make it. -/
def Spec.bufferUse {α : Type} : DequeOp α → BufferUse
  | .pushFront _ | .pushBack _ => .needs
  | .clear => .makes
  | .reserve n => if n = 0 then .neither else .makes
  | .append o => if o.toList.isEmpty then .neither else .makes
  | _ => .neither

/-- Specification: the history pushes an element before anything has made room. -/
def Spec.pushesFirst {α : Type} : List (DequeOp α) → Bool
  | [] => false
  | o :: ops =>
    match bufferUse o with
    | .needs => true
    | .makes => false
    | .neither => pushesFirst ops

section Deque
variable {α : Type} [Inhabited α]

theorem VecDeque.zero_reserve (n : Nat) (h0 : n ≠ 0) (hn : n < 2 ^ 63) :
    (VecDeque.zero : VecDeque α).reserve n = .ok ⟨List.replicate n default, 0, 0⟩ := by
  have u : usize (0 + n) = n := by unfold usize; omega
  simp only [reserve, capacity, zero, List.length_nil, u]
  rw [if_pos (by omega)]
  simp only [remake, makeLen]
  rw [if_pos hn]
  simp only [Go.bind_ok, handleCapacityIncrease, List.take_nil, List.nil_append, List.length_nil, Nat.sub_zero,
    List.length_replicate]
  rw [if_neg (by omega), if_pos (by omega)]

theorem VecDeque.replicate_inv (n : Nat) (h0 : n ≠ 0) (hn : n < 2 ^ 63) :
    (⟨List.replicate n default, 0, 0⟩ : VecDeque α).Inv :=
  ⟨by simp; omega, by simpa using hn, by simp, by simp; omega⟩

theorem VecDeque.zero_push (o : DequeOp α) (h : Spec.bufferUse o = .needs) :
    VecDeque.step o (VecDeque.zero : VecDeque α) = .error .explicit := by
  cases o with
  | pushFront v => rfl
  | pushBack v => rfl
  | reserve n => simp only [Spec.bufferUse] at h; split at h <;> cases h
  | append o => simp only [Spec.bufferUse] at h; split at h <;> cases h
  | _ => cases h

theorem VecDeque.zero_neither (o : DequeOp α) (ho : o.Ok) (h : Spec.bufferUse o = .neither) (l : List α) (r : Obs α)
    (hs : Spec.dequeStep o [] = some (l, r)) :
    l = [] ∧ VecDeque.step o (VecDeque.zero : VecDeque α) = .ok (VecDeque.zero, r) := by
  cases o with
  | pushFront v => cases h
  | pushBack v => cases h
  | clear => cases h
  | getUnchecked i => simp [Spec.dequeStep] at hs
  | setUnchecked i v => simp [Spec.dequeStep] at hs
  | swap i j => simp [Spec.dequeStep, swapAt] at hs
  | set i v =>
    simp only [Spec.dequeStep, List.set_nil, List.length_nil, Option.some.injEq, Prod.mk.injEq] at hs
    obtain ⟨rfl, rfl⟩ := hs
    exact ⟨rfl, rfl⟩
  | get i =>
    simp only [Spec.dequeStep, Option.some.injEq, Prod.mk.injEq] at hs
    obtain ⟨rfl, rfl⟩ := hs
    exact ⟨rfl, rfl⟩
  | reserve n =>
    simp only [Spec.bufferUse] at h
    by_cases hn : n = 0
    · subst hn
      cases hs
      exact ⟨rfl, rfl⟩
    · rw [if_neg hn] at h; cases h
  | append o =>
    simp only [Spec.bufferUse] at h
    by_cases he : o.toList.isEmpty = true
    · have hnil : o.toList = [] := by simpa using he
      have hl := toList_length (d := o) ho
      rw [hnil] at hl
      simp only [Spec.dequeStep, hnil, Option.some.injEq, Prod.mk.injEq] at hs
      obtain ⟨rfl, rfl⟩ := hs
      refine ⟨rfl, ?_⟩
      simp only [VecDeque.step, VecDeque.append, ← hl, List.length_nil]
      rfl
    · rw [if_neg he] at h; cases h
  | retain p => cases hs; exact ⟨rfl, rfl⟩
  | popFront => cases hs; exact ⟨rfl, rfl⟩
  | popBack => cases hs; exact ⟨rfl, rfl⟩
  | front => cases hs; exact ⟨rfl, rfl⟩
  | back => cases hs; exact ⟨rfl, rfl⟩
  | len => cases hs; exact ⟨rfl, rfl⟩
  | isEmpty => cases hs; exact ⟨rfl, rfl⟩

theorem VecDeque.zero_makes (o : DequeOp α) (ho : o.Ok) (hroom : 7 + o.room < 2 ^ 63)
    (h : Spec.bufferUse o = .makes) (l : List α) (r : Obs α) (hs : Spec.dequeStep o [] = some (l, r)) :
    ∃ d, VecDeque.step o (VecDeque.zero : VecDeque α) = .ok (d, r) ∧ d.Inv ∧ d.toList = l ∧
      d.space ≤ 7 + o.room := by
  cases o with
  | clear =>
    cases hs
    exact ⟨⟨List.replicate 7 default, 0, 0⟩, rfl, replicate_inv 7 (by omega) (by omega), rfl, by simp [space]⟩
  | reserve n =>
    simp only [Spec.bufferUse] at h
    by_cases hn : n = 0
    · rw [if_pos hn] at h; cases h
    · cases hs
      simp only [DequeOp.room] at hroom ⊢
      refine ⟨⟨List.replicate n default, 0, 0⟩, ?_, replicate_inv n hn (by omega), by simp [toList], ?_⟩
      · simp only [VecDeque.step, zero_reserve n hn (by omega), Go.bind_ok]
      · simp only [space, List.length_replicate]; omega
  | append o =>
    simp only [Spec.bufferUse] at h
    by_cases he : o.toList.isEmpty = true
    · rw [if_pos he] at h; cases h
    · cases hs
      simp only [DequeOp.room] at hroom ⊢
      have hl := toList_length (d := o) ho
      have hn : o.len ≠ 0 := by
        intro h0
        rw [h0] at hl
        exact he (by simpa using List.eq_nil_of_length_eq_zero hl)
      obtain ⟨d2, a2, b2, c2, e2⟩ := appendLoop_eq (o := o) ho o.len 0 (by omega)
        (replicate_inv (α := α) o.len hn (by omega)) (by simp)
      have ht : toList (⟨List.replicate o.len default, 0, 0⟩ : VecDeque α) = [] := by simp [toList]
      rw [ht] at c2
      simp only [List.nil_append, List.drop_zero] at c2
      refine ⟨d2, ?_, b2, by simpa using c2, ?_⟩
      · simp only [VecDeque.step, VecDeque.append, zero_reserve o.len hn (by omega), a2, Go.bind_ok]
        rfl
      · have hl2 := toList_length b2
        rw [c2] at hl2
        simp only [List.length_replicate] at e2
        simp only [space]
        omega
  | _ => cases h

/-- C150 for VecDeque, full property: a deque that was only declared behaves as an empty sequence.  Proved: for
every history in the domain of the unchecked operations and in the address space, this holds exactly if no
PushFront and no PushBack comes before a Clear, a Reserve(n) with n > 0 or an Append of a deque with elements.
Missing: the other histories, see `C150_deque_fails`. -/
theorem C150_deque_partial (ops : List (DequeOp α)) (hok : ∀ o ∈ ops, o.Ok)
    (hroom : 7 + (ops.map DequeOp.room).sum < 2 ^ 63) (rs : List (Obs α)) (l' : List α)
    (hs : Spec.runOps Spec.dequeStep ops ([] : List α) = (rs, some l')) :
    (∃ d', Spec.runOps (fun o d => Go.toOption (VecDeque.step o d)) ops VecDeque.zero = (rs, some d') ∧
      d'.toList = l') ↔ Spec.pushesFirst ops = false := by
  induction ops generalizing rs with
  | nil =>
    simp only [Spec.runOps, Prod.mk.injEq, Option.some.injEq] at hs
    obtain ⟨rfl, rfl⟩ := hs
    exact ⟨fun _ => rfl, fun _ => ⟨VecDeque.zero, rfl, rfl⟩⟩
  | cons o ops ih =>
    simp only [List.map_cons, List.sum_cons] at hroom
    simp only [Spec.runOps] at hs ⊢
    cases hstep : Spec.dequeStep o ([] : List α) with
    | none => rw [hstep] at hs; simp at hs
    | some p =>
      obtain ⟨l1, r⟩ := p
      rw [hstep] at hs
      simp only [Prod.mk.injEq] at hs
      obtain ⟨hrs, hl⟩ := hs
      subst hrs
      cases hu : Spec.bufferUse o with
      | needs =>
        have e := VecDeque.zero_push o hu
        simp [Spec.pushesFirst, hu, e, Go.toOption]
      | makes =>
        obtain ⟨d1, a, b, c, e⟩ := VecDeque.zero_makes o (hok o (by simp)) (by omega) hu l1 r hstep
        obtain ⟨d2, a2, b2, c2⟩ := C56_deque_history ops d1 b (fun o' ho' => hok o' (by simp [ho'])) (by omega)
          (Spec.runOps Spec.dequeStep ops l1).1 l' (by rw [c]; exact Prod.ext rfl hl)
        simp only [Spec.pushesFirst, hu, iff_true]
        exact ⟨d2, by rw [a]; simp only [Go.toOption_ok, a2], c2⟩
      | neither =>
        obtain ⟨rfl, e⟩ := VecDeque.zero_neither o (hok o (by simp)) hu l1 r hstep
        have := ih (fun o' ho' => hok o' (by simp [ho'])) (by omega) (Spec.runOps Spec.dequeStep ops []).1
          (Prod.ext rfl hl)
        simp only [Spec.pushesFirst, hu]
        rw [← this, e]
        simp only [Go.toOption_ok, Prod.mk.injEq, List.cons.injEq, true_and]
        constructor
        · rintro ⟨d', ⟨h1, h2⟩, h3⟩
          exact ⟨d', Prod.ext h1 h2, h3⟩
        · rintro ⟨d', h1, h3⟩
          exact ⟨d', ⟨by rw [h1], by rw [h1]⟩, h3⟩

/-- C150 is violated by VecDeque: the first PushFront or PushBack on a deque that was only declared panics,
whatever the element. -/
theorem C150_deque_fails (v : α) :
    (VecDeque.zero : VecDeque α).pushBack v = .error .explicit ∧
    (VecDeque.zero : VecDeque α).pushFront v = .error .explicit := ⟨rfl, rfl⟩

/-- C150 for VecDeque: what only reads or copies works on a deque that was only declared, gives the answer for
an empty deque, and the copy is a deque as the constructors make them.  A declared deque as argument of Append
is the same as any other empty one. -/
theorem C150_deque_reads (e : Option (α → α → Bool)) (v : α) :
    (VecDeque.zero : VecDeque α).toList = [] ∧
    (VecDeque.zero : VecDeque α).dedup e = .ok VecDeque.zero ∧
    (VecDeque.zero : VecDeque α).asSlice = .ok [] ∧
    (VecDeque.zero : VecDeque α).fill v = .ok VecDeque.zero ∧
    (∀ f, e = some f → (VecDeque.zero : VecDeque α).contains e v = .ok false) ∧
    (∃ d : VecDeque α, VecDeque.zero.clone = .ok d ∧ d.Inv ∧ d.toList = []) ∧
    ∀ d o : VecDeque α, o.Inv → o.toList = [] → d.append VecDeque.zero = d.append o := by
  refine ⟨rfl, rfl, rfl, rfl, fun f hf => by subst hf; rfl, ?_, fun d o ho hn => ?_⟩
  · exact ⟨⟨List.replicate 1 default, 0, 0⟩, rfl, VecDeque.replicate_inv 1 (by omega) (by omega), rfl⟩
  · have hl := VecDeque.toList_length ho
    rw [hn] at hl
    simp only [VecDeque.append, ← hl]
    rfl

example : Spec.pushesFirst [.len, .popBack, .reserve 0, .append exDeque, .pushBack 9] = false ∧
    Spec.runOps (fun o d => Go.toOption (VecDeque.step o d))
      [.len, .popBack, .reserve 0, .append exDeque, .pushBack 9] VecDeque.zero =
    ([.nat 0, .opt none, .unit, .other [], .unit], some ⟨[1, 2, 3, 9, 0, 0], 4, 0⟩) := by
  constructor <;> rfl
example : Spec.pushesFirst [.isEmpty, .pushBack 9, .clear] = true ∧
    Spec.runOps (fun o d => Go.toOption (VecDeque.step o d)) [.isEmpty, .pushBack 9, .clear] VecDeque.zero =
    ([.bool true], none) := by
  constructor <;> rfl
end Deque

/-! ### C150: the hash containers -/

/-- Specification: the history inserts before the first Clear. -/
def Spec.insertsFirst {κ ν : Type} : List (HOp κ ν) → Bool
  | [] => false
  | .insert _ _ :: _ => true
  | .clear :: _ => false
  | _ :: ops => insertsFirst ops

/-- The same for sets. -/
def Spec.addsFirst {κ : Type} : List (SOp κ) → Bool
  | [] => false
  | .insert _ :: _ => true
  | .clear :: _ => false
  | _ :: ops => addsFirst ops

section Hash
variable {κ ν : Type} [GoKey κ] [LawfulGoKey κ]

theorem GoMap.get_nil (k : κ) : GoMap.get ([] : GoMap κ ν) k = .ok none := by
  simp [GoMap.get, GoMap.hash, LawfulGoKey.hash]

theorem HMap.zero_insert (h : MapHeap κ ν) (k : κ) (v : ν) : HMap.zero.insert h k v = .error .nilMap := by
  simp [HMap.insert, HMap.zero, HMap.load, HMap.assign, GoMap.get_nil]

theorem HMap.zero_step (o : HOp κ ν) (h : MapHeap κ ν) (hi : ∀ k v, o ≠ .insert k v) (hc : o ≠ .clear) :
    HMap.step o (h, HMap.zero) = .ok ((h, HMap.zero), (Spec.mapStep o FMap.empty).2) ∧
      (Spec.mapStep o (FMap.empty : FMap κ ν)).1 = FMap.empty := by
  cases o with
  | insert k v => exact absurd rfl (hi k v)
  | clear => exact absurd rfl hc
  | remove k =>
    refine ⟨?_, by simp [Spec.mapStep, FMap.remove, FMap.empty]⟩
    simp [HMap.step, HMap.remove, HMap.zero, HMap.load, HMap.delete, GoMap.get_nil, GoMap.hash, LawfulGoKey.hash,
      Spec.mapStep, FMap.empty, Opt.none]
  | get k => exact ⟨by simp [HMap.step, HMap.get, HMap.zero, HMap.load, GoMap.get_nil, Spec.mapStep, FMap.empty, Opt.none], rfl⟩
  | containsKey k =>
    exact ⟨by simp [HMap.step, HMap.containsKey, HMap.zero, HMap.load, GoMap.get_nil, Spec.mapStep, FMap.empty], rfl⟩
  | len => exact ⟨rfl, rfl⟩
  | isEmpty => exact ⟨rfl, rfl⟩

/-- C150 for HashMap, full property: a map that was only declared behaves as an empty map.  Proved: for every
history (of fewer than 2^64 operations, lawful `==`) this holds exactly if no Insert comes before the first
Clear.  Missing: the other histories, see `C150_hash_fails`. -/
theorem C150_map_partial (ops : List (HOp κ ν)) (h : MapHeap κ ν) (hs : ops.length < 2 ^ 64) :
    (∃ h' m', runGo HMap.step ops (h, HMap.zero) = .ok ((Spec.runMap Spec.mapStep ops FMap.empty).1, (h', m')) ∧
      ∀ r, r < h.length → h'[r]? = h[r]?) ↔ Spec.insertsFirst ops = false := by
  have keep : ∀ (o : HOp κ ν) (os : List (HOp κ ν)), (∀ k v, o ≠ .insert k v) → o ≠ .clear →
      ((∃ h' m', runGo HMap.step (o :: os) (h, HMap.zero) =
          .ok ((Spec.runMap Spec.mapStep (o :: os) FMap.empty).1, (h', m')) ∧ ∀ r, r < h.length → h'[r]? = h[r]?) ↔
        ∃ h' m', runGo HMap.step os (h, HMap.zero) = .ok ((Spec.runMap Spec.mapStep os FMap.empty).1, (h', m')) ∧
          ∀ r, r < h.length → h'[r]? = h[r]?) := by
    intro o os h1 h2
    obtain ⟨a, b⟩ := HMap.zero_step o h h1 h2
    simp only [runGo, a, Go.bind_ok, Spec.runMap, b]
    constructor
    · rintro ⟨h', m', e, f⟩
      cases hx : runGo HMap.step os (h, HMap.zero) with
      | error x => rw [hx] at e; cases e
      | ok x =>
        obtain ⟨rs, y⟩ := x
        rw [hx] at e
        simp only [Go.bind_ok, Except.ok.injEq, Prod.mk.injEq, List.cons.injEq, true_and] at e
        exact ⟨h', m', by rw [e.1, e.2], f⟩
    · rintro ⟨h', m', e, f⟩
      exact ⟨h', m', by rw [e]; rfl, f⟩
  induction ops with
  | nil => exact ⟨fun _ => rfl, fun _ => ⟨h, HMap.zero, rfl, fun _ _ => rfl⟩⟩
  | cons o ops ih =>
    simp only [List.length_cons] at hs
    cases o with
    | insert k v =>
      simp only [Spec.insertsFirst, runGo, HMap.step, HMap.zero_insert]
      constructor
      · rintro ⟨_, _, e, _⟩; cases e
      · intro e; cases e
    | clear =>
      simp only [Spec.insertsFirst, iff_true]
      obtain ⟨h', m', e, _, f⟩ := C69_map_history ops (HMap.new h).1 (HMap.new h).2 FMap.empty (HMap.new_rep h)
        (by simp only [FMap.empty]; omega)
      refine ⟨h', m', ?_, fun r hr => ?_⟩
      · simp only [runGo, HMap.step]
        change (do let (rs, s) ← runGo HMap.step ops (HMap.new h); Except.ok (Obs.unit :: rs, s)) = _
        rw [show HMap.new h = ((HMap.new h).1, (HMap.new h).2) from rfl, e]
        rfl
      · rw [f.others r (by simp [HMap.new]; omega) (by simp [HMap.new]; omega)]
        simp [HMap.new, List.getElem?_append_left hr]
    | remove k => rw [keep _ ops (by simp) (by simp)]; exact ih (by omega)
    | get k => rw [keep _ ops (by simp) (by simp)]; exact ih (by omega)
    | containsKey k => rw [keep _ ops (by simp) (by simp)]; exact ih (by omega)
    | len => rw [keep _ ops (by simp) (by simp)]; exact ih (by omega)
    | isEmpty => rw [keep _ ops (by simp) (by simp)]; exact ih (by omega)

theorem HSet.zero_step (o : SOp κ) (h : SetHeap κ) (hi : ∀ k, o ≠ .insert k) (hc : o ≠ .clear) :
    HSet.step o (h, HSet.zero) = .ok ((h, HSet.zero), (Spec.setStep o FSet.empty).2) ∧
      (Spec.setStep o (FSet.empty : FSet κ)).1 = FSet.empty := by
  cases o with
  | insert k => exact absurd rfl (hi k)
  | clear => exact absurd rfl hc
  | remove k =>
    refine ⟨?_, by simp [Spec.setStep, FSet.remove, FSet.empty]⟩
    simp [HSet.step, HSet.remove, HSet.zero, HMap.remove, HMap.zero, HMap.load, HMap.delete, GoMap.get_nil, GoMap.hash,
      LawfulGoKey.hash, Spec.setStep, FSet.empty, Opt.none, Opt.isSome]
  | get k =>
    exact ⟨by simp [HSet.step, HSet.get, HSet.zero, HMap.get, HMap.zero, HMap.load, GoMap.get_nil, Spec.setStep,
      FSet.empty, Opt.none, Opt.isSome], rfl⟩
  | contains k =>
    exact ⟨by simp [HSet.step, HSet.contains, HSet.zero, HMap.containsKey, HMap.zero, HMap.load, GoMap.get_nil,
      Spec.setStep, FSet.empty], rfl⟩
  | len => exact ⟨rfl, rfl⟩
  | isEmpty => exact ⟨rfl, rfl⟩

/-- C150 for HashSet, full property: a set that was only declared behaves as an empty set.  Proved: for every
history (of fewer than 2^64 operations, lawful `==`) this holds exactly if no Insert comes before the first
Clear.  Missing: the other histories, see `C150_hash_fails`. -/
theorem C150_set_partial (ops : List (SOp κ)) (h : SetHeap κ) (hs : ops.length < 2 ^ 64) :
    (∃ h' s', runGo HSet.step ops (h, HSet.zero) = .ok ((Spec.runMap Spec.setStep ops FSet.empty).1, (h', s')) ∧
      ∀ r, r < h.length → h'[r]? = h[r]?) ↔ Spec.addsFirst ops = false := by
  have keep : ∀ (o : SOp κ) (os : List (SOp κ)), (∀ k, o ≠ .insert k) → o ≠ .clear →
      ((∃ h' s', runGo HSet.step (o :: os) (h, HSet.zero) =
          .ok ((Spec.runMap Spec.setStep (o :: os) FSet.empty).1, (h', s')) ∧ ∀ r, r < h.length → h'[r]? = h[r]?) ↔
        ∃ h' s', runGo HSet.step os (h, HSet.zero) = .ok ((Spec.runMap Spec.setStep os FSet.empty).1, (h', s')) ∧
          ∀ r, r < h.length → h'[r]? = h[r]?) := by
    intro o os h1 h2
    obtain ⟨a, b⟩ := HSet.zero_step o h h1 h2
    simp only [runGo, a, Go.bind_ok, Spec.runMap, b]
    constructor
    · rintro ⟨h', m', e, f⟩
      cases hx : runGo HSet.step os (h, HSet.zero) with
      | error x => rw [hx] at e; cases e
      | ok x =>
        obtain ⟨rs, y⟩ := x
        rw [hx] at e
        simp only [Go.bind_ok, Except.ok.injEq, Prod.mk.injEq, List.cons.injEq, true_and] at e
        exact ⟨h', m', by rw [e.1, e.2], f⟩
    · rintro ⟨h', m', e, f⟩
      exact ⟨h', m', by rw [e]; rfl, f⟩
  induction ops with
  | nil => exact ⟨fun _ => rfl, fun _ => ⟨h, HSet.zero, rfl, fun _ _ => rfl⟩⟩
  | cons o ops ih =>
    simp only [List.length_cons] at hs
    cases o with
    | insert k =>
      simp only [Spec.addsFirst, runGo, HSet.step, HSet.insert, HSet.zero, HMap.zero_insert]
      constructor
      · rintro ⟨_, _, e, _⟩; cases e
      · intro e; cases e
    | clear =>
      simp only [Spec.addsFirst, iff_true]
      obtain ⟨h', m', e, _, f⟩ := C71_set_history ops (HSet.new h).1 (HSet.new h).2 FSet.empty (C71_set_new h 0).1
        (by simp only [FSet.empty]; omega)
      refine ⟨h', m', ?_, fun r hr => ?_⟩
      · simp only [runGo, HSet.step]
        change (do let (rs, s) ← runGo HSet.step ops (HSet.new h); Except.ok (Obs.unit :: rs, s)) = _
        rw [show HSet.new h = ((HSet.new h).1, (HSet.new h).2) from rfl, e]
        rfl
      · rw [f.others r (by simp [HSet.new, HMap.new]; omega) (by simp [HSet.new, HMap.new]; omega)]
        simp [HSet.new, HMap.new, List.getElem?_append_left hr]
    | remove k => rw [keep _ ops (by simp) (by simp)]; exact ih (by omega)
    | get k => rw [keep _ ops (by simp) (by simp)]; exact ih (by omega)
    | contains k => rw [keep _ ops (by simp) (by simp)]; exact ih (by omega)
    | len => rw [keep _ ops (by simp) (by simp)]; exact ih (by omega)
    | isEmpty => rw [keep _ ops (by simp) (by simp)]; exact ih (by omega)

/-- C150 is violated by HashMap and HashSet: the first Insert into one that was only declared panics. -/
theorem C150_hash_fails (h : MapHeap κ ν) (g : SetHeap κ) (k : κ) (v : ν) :
    HMap.zero.insert h k v = .error .nilMap ∧ HSet.zero.insert g k = .error .nilMap := by
  refine ⟨HMap.zero_insert h k v, ?_⟩
  simp only [HSet.insert, HSet.zero, HMap.zero_insert]
  rfl

/-- C150 for HashMap and HashSet: iterating over one that was only declared visits nothing, and its Clone is a
map (set) as the constructors make them, so insertions into the copy work. -/
theorem C150_hash_clone (ck : κ → κ) (cv : ν → ν) (h : MapHeap κ ν) (g : SetHeap κ) (ord : List (κ × ν))
    (ordS : List (κ × Unit)) (ho : HMap.zero.Ranges h ord) (hoS : HSet.zero.hashMap.Ranges g ordS) :
    ord = [] ∧ ordS = [] ∧
    (∃ h' m, HMap.clone (some ck) (some cv) h ord = .ok (h', m) ∧ m.Rep h' FMap.empty) ∧
    (∃ g' s, HSet.clone (some ck) ordS g = (.ok s, g') ∧ s.Rep g' FSet.empty) := by
  have e1 : ord = [] := List.Perm.eq_nil ho
  have e2 : ordS = [] := List.Perm.eq_nil hoS
  subst e1
  subst e2
  exact ⟨rfl, rfl, ⟨_, _, rfl, HMap.new_rep h⟩, ⟨_, _, rfl, HMap.new_rep g⟩⟩

example : Spec.insertsFirst [.get (1 : Int), .remove 1, .len, .clear, .insert 1 (10 : Int), .get 1] = false ∧
    runGo HMap.step [.get (1 : Int), .remove 1, .len, .clear, .insert 1 10, .get 1]
      (([[(7, 70)]] : MapHeap Int Int), HMap.zero) =
    .ok ([.opt none, .opt none, .nat 0, .unit, .opt none, .opt (some 10)], ([[(7, 70)], [(1, 10)]], ⟨some 1⟩)) := by
  decide
example : Spec.insertsFirst [.len, .insert (1 : Int) (10 : Int), .clear] = true ∧
    runGo HMap.step [.len, .insert (1 : Int) 10, .clear] (([[(7, 70)]] : MapHeap Int Int), HMap.zero) =
      .error .nilMap := by
  decide
example : Spec.addsFirst [.contains (1 : Int), .clear, .insert 1, .contains 1] = false ∧
    runGo HSet.step [.contains (1 : Int), .clear, .insert 1, .contains 1] (([] : SetHeap Int), HSet.zero) =
      .ok ([.bool false, .unit, .bool true, .bool true], ([[(1, ())]], ⟨⟨some 0⟩⟩)) := by
  decide
end Hash

/-! ### C150: the others -/

/-- C150: Vec, LinkedList, BinaryHeap, BTreeMap and BTreeSet need no constructor: every history on one that was
only declared gives what it gives on an empty sequence, on an empty bag with a maximum, or on an empty ordered
map or set (for the B-tree as far as C72 and C76 go: insertions that fit, a lawful Cmp). -/
theorem C150_others {α κ ν : Type} [Inhabited α] (g : Growth) :
    (∀ ops : List (VecOp α),
      ((Spec.runOps (fun o s => Go.toOption (Vec.step g o s)) ops Vec.zero).1,
        (Spec.runOps (fun o s => Go.toOption (Vec.step g o s)) ops Vec.zero).2.map (·.data)) =
      Spec.runOps Spec.vecStep ops []) ∧
    (Vec.zero (α := α)).capacity = 0 ∧
    (∀ (n : Nat) (ops : List (LOp α)) (rs : List (Obs α)) (xss : List (List α)), ops.length < 2 ^ 64 →
      Spec.runOps Spec.listStep ops (List.replicate n []) = (rs, some xss) →
      ∃ s', Spec.runOps (fun o s => Go.toOption (LProg.step o s)) ops ⟨[], List.replicate n LList.zero⟩ =
        (rs, some s') ∧ s'.Holds xss) ∧
    (∀ (cmp : α → α → Ordering), TotalCmp cmp → ∀ ops : List (HeapOp α),
      ∃ rs s', Spec.runOps (BHeap.step g cmp) ops BHeap.zero = (rs, some s') ∧
        HeapRun cmp ops [] rs s'.vec.data) ∧
    (∀ (cmp : κ → κ → Ordering), LawfulCmp cmp → ∀ (ops : List (HOp κ ν)) (h : BStore κ ν), Admissible cmp ops [] →
      ∃ h' m', runGo (BMap.step cmp) ops (h, BMap.zero) = .ok ((runMap (ordStep cmp) ops []).1, (h', m'))) ∧
    (∀ (cmp : κ → κ → Ordering), LawfulCmp cmp → ∀ (ops : List (TOp κ)) (h : BSet.Store κ), SetAdmissible cmp ops [] →
      ∃ h' s', runGo (BSet.step cmp) ops (h, BSet.zero) = .ok ((runMap (osetStep cmp) ops []).1, (h', s'))) := by
  refine ⟨fun ops => C45_vec_history g ops Vec.zero, rfl, ?_, ?_, ?_, ?_⟩
  · intro n ops rs xss hl hr
    exact C63_list_history ops _ _ (C63_list_new n) (by simpa using hl) rs xss hr
  · intro cmp hc ops
    obtain ⟨rs, s', a, _, c⟩ := C66_heap_history g cmp hc ops BHeap.zero (C66_heap_new (α := α) cmp hc).1
    exact ⟨rs, s', a, c⟩
  · intro cmp hc ops h ha
    obtain ⟨h', m', e, _⟩ := C72_btree_history_partial hc ops ha h
    exact ⟨h', m', e⟩
  · intro cmp hc ops h ha
    obtain ⟨h', s', e, _⟩ := C76_set_history_partial hc ops ha h
    exact ⟨h', s', e⟩

example (g : Growth) : (Spec.runOps (fun o s => Go.toOption (Vec.step g o s)) [.push 4, .push 5, .pop] Vec.zero).2.map
    (·.data) = some [4] := rfl
example : runGo (BMap.step compare) [.insert (1 : Int) 10, .get 1, .len] (([] : BStore Int Int), BMap.zero) =
    runGo (BMap.step compare) [.insert (1 : Int) 10, .get 1, .len] (([] : BStore Int Int), BMap.new) ∧
    (match runGo (BMap.step compare) [.insert (1 : Int) 10, .get 1, .len] (([] : BStore Int Int), BMap.zero) with
      | .ok (rs, _) => rs
      | .error _ => []) = [.opt none, .opt (some 10), .nat 1] := by decide
end Gost
