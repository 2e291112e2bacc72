import Verif.Model.Unwind
import Verif.Props.UnwindHeap
import Verif.Props.Vec
import Verif.Props.VecDeque
/-
Property C133: vectors and deques whose callbacks panic.
-/
namespace Gost
open Spec

variable {c σ α β κ : Type}

namespace Spec
/-- Call f on the elements, first to last, until it panics: the answers so far, the panic if there was one, the state. -/
def calls (f : α → Eff σ β) : List α → σ → List β × Option Panic × σ
  | [], s => ([], none, s)
  | a :: l, s =>
    match f a s with
    | (.error e, s') => ([], some e, s')
    | (.ok b, s') => (b :: (calls f l s').1, (calls f l s').2)

/-- What the caller sees: a panic or a result. -/
def outcome (b : β) : Option Panic → Except Panic β
  | none => .ok b
  | some e => .error e

/-- The elements whose key is not among the earlier keys. -/
def freshBy (keq : κ → κ → Bool) : List κ → List α → List κ → List α
  | seen, a :: l, k :: ks => if seen.any (keq k) then freshBy keq seen l ks else a :: freshBy keq (k :: seen) l ks
  | _, _, _ => []

/-- Compare every element with the last one kept, and keep it if they differ, until a comparison panics: the elements
kept, the number of comparisons that returned, the panic, the state. -/
def dedupCalls (e : α → α → Eff σ Bool) (last : α) : List α → σ → List α × Nat × Option Panic × σ
  | [], s => ([], 0, none, s)
  | a :: l, s =>
    match e a last s with
    | (.error x, s') => ([], 0, some x, s')
    | (.ok true, s') => ((dedupCalls e last l s').1, (dedupCalls e last l s').2.1 + 1, (dedupCalls e last l s').2.2)
    | (.ok false, s') => (a :: (dedupCalls e a l s').1, (dedupCalls e a l s').2.1 + 1, (dedupCalls e a l s').2.2)
end Spec

theorem calls_length (f : α → Eff σ β) (l : List α) (s : σ) : (calls f l s).1.length ≤ l.length := by
  induction l generalizing s with
  | nil => simp [calls]
  | cons a l ih =>
    unfold calls
    rcases f a s with ⟨e | b, s'⟩
    · simp
    · simpa using ih s'

theorem calls_all (f : α → Eff σ β) (l : List α) (s : σ) (h : (calls f l s).2.1 = none) :
    (calls f l s).1.length = l.length := by
  induction l generalizing s with
  | nil => simp [calls]
  | cons a l ih =>
    unfold calls at h ⊢
    rcases hf : f a s with ⟨e | b, s'⟩
    · rw [hf] at h; cases h
    · rw [hf] at h
      simpa using ih s' h

/-! ### Vec -/

theorem Unwind.retainLoop_run (g : Growth) (p : α → Eff σ Bool) (l : List α) : ∀ (acc v : Vec α) (s : σ),
    acc.data.length + l.length ≤ acc.cap →
    Unwind.retainLoop g p l acc (v, s) =
      (outcome ⟨acc.data ++ select l (calls p l s).1, acc.cap⟩ (calls p l s).2.1, (v, (calls p l s).2.2)) := by
  induction l with
  | nil =>
    intro acc v s _
    simp [Unwind.retainLoop, calls, outcome, select]
  | cons a l ih =>
    intro acc v s hc
    simp only [List.length_cons] at hc
    unfold Unwind.retainLoop
    rw [Eff.bind_run]
    unfold Unwind.call calls
    rcases p a s with ⟨e | b, s'⟩
    · rfl
    · cases b with
      | true =>
        have hg : acc.goAppend g [a] = ⟨acc.data ++ [a], acc.cap⟩ := by
          unfold Vec.goAppend
          simp only [List.length_singleton]
          rw [if_pos (by omega)]
        simp only [if_true, hg]
        rw [ih _ _ _ (by simp; omega)]
        simp [select_cons]
      | false =>
        simp only [Bool.false_eq_true, if_false]
        rw [ih _ _ _ (by omega)]
        simp [select_cons]

/-- C133: Retain of a Vec calls the predicate on the elements in order; if it returns, exactly the accepted elements are
left; if the predicate panics, the vector is as it was. -/
theorem C133_vec_retain (g : Growth) (p : α → Eff σ Bool) (v : Vec α) (s : σ) :
    Unwind.retain g p (v, s) =
      match calls p v.data s with
      | (bs, none, s') => (.ok (), (⟨select v.data bs, v.len⟩, s'))
      | (_, some e, s') => (.error e, (v, s')) := by
  simp only [Unwind.retain, Eff.bind_run, Unwind.get]
  rw [Unwind.retainLoop_run _ _ _ _ _ _ (by simp)]
  rcases calls p v.data s with ⟨bs, _ | e, s'⟩ <;> simp [outcome, Unwind.put, Vec.len]

theorem Unwind.dedupByKeyLoop_run (g : Growth) (keq : κ → κ → Bool) (key : α → Eff σ κ) (l : List α) :
    ∀ (seen : List κ) (acc v : Vec α) (s : σ), acc.data.length + l.length ≤ acc.cap →
    Unwind.dedupByKeyLoop g keq key l seen acc (v, s) =
      (outcome ⟨acc.data ++ freshBy keq seen l (calls key l s).1, acc.cap⟩ (calls key l s).2.1,
        (v, (calls key l s).2.2)) := by
  induction l with
  | nil =>
    intro seen acc v s _
    simp [Unwind.dedupByKeyLoop, calls, outcome, freshBy]
  | cons a l ih =>
    intro seen acc v s hc
    simp only [List.length_cons] at hc
    unfold Unwind.dedupByKeyLoop
    rw [Eff.bind_run]
    unfold Unwind.call calls
    rcases key a s with ⟨e | k, s'⟩
    · rfl
    · by_cases hk : seen.any (keq k) = true
      · simp only [hk, Bool.not_true, Bool.false_eq_true, if_false, freshBy, if_true]
        rw [ih _ _ _ _ (by omega)]
      · have hk : seen.any (keq k) = false := by simpa using hk
        have hg : acc.goAppend g [a] = ⟨acc.data ++ [a], acc.cap⟩ := by
          unfold Vec.goAppend
          simp only [List.length_singleton]
          rw [if_pos (by omega)]
        simp only [hk, Bool.not_false, if_true, hg, freshBy, Bool.false_eq_true, if_false]
        rw [ih _ _ _ _ (by simp; omega)]
        simp

/-- C133: DedupByKey calls the key function on the elements in order; if it panics, the vector is as it was, otherwise
the elements with a key that was not there before are left. -/
theorem C133_vec_dedupByKey (g : Growth) (keq : κ → κ → Bool) (key : α → Eff σ κ) (v : Vec α) (s : σ) :
    Unwind.dedupByKey g keq key (v, s) =
      match calls key v.data s with
      | (ks, none, s') => (.ok (), (⟨freshBy keq [] v.data ks, v.len⟩, s'))
      | (_, some e, s') => (.error e, (v, s')) := by
  simp only [Unwind.dedupByKey, Eff.bind_run, Unwind.get]
  rw [Unwind.dedupByKeyLoop_run _ _ _ _ _ _ _ _ (by simp)]
  rcases calls key v.data s with ⟨bs, _ | e, s'⟩ <;> simp [outcome, Unwind.put, Vec.len]

theorem Unwind.fillWithLoop_run (f : Eff σ α) (l : List α) : ∀ (pre : List α) (cap : Nat) (s : σ),
    Unwind.fillWithLoop f l.length pre.length (⟨pre ++ l, cap⟩, s) =
      (outcome () (calls (fun _ : α => f) l s).2.1,
        (⟨pre ++ (calls (fun _ : α => f) l s).1 ++ l.drop (calls (fun _ : α => f) l s).1.length, cap⟩,
          (calls (fun _ : α => f) l s).2.2)) := by
  induction l with
  | nil =>
    intro pre cap s
    simp [Unwind.fillWithLoop, calls, outcome]
  | cons a l ih =>
    intro pre cap s
    simp only [List.length_cons]
    unfold Unwind.fillWithLoop calls
    rw [Eff.bind_run]
    unfold Unwind.call
    rcases f s with ⟨e | x, s'⟩
    · simp [outcome]
    · have hset : (⟨pre ++ a :: l, cap⟩ : Vec α).setUnchecked pre.length x = .ok ⟨pre ++ [x] ++ l, cap⟩ := by
        unfold Vec.setUnchecked
        rw [setIndex_lt (by simp)]
        simp
      simp only [Eff.bind_run, Unwind.get, Eff.lift_run, hset, Unwind.put]
      have := ih (pre ++ [x]) cap s'
      rw [List.length_append, List.length_singleton] at this
      rw [this]
      simp

/-- C133: FillWith of a Vec calls its function once per element; the results are stored in order up to the call that
panicked, and the elements from there on are as they were. -/
theorem C133_vec_fillWith (f : Eff σ α) (v : Vec α) (s : σ) (xs : List α) (o : Option Panic) (s' : σ)
    (h : calls (fun _ : α => f) v.data s = (xs, o, s')) :
    Unwind.fillWith f (v, s) = (outcome () o, (⟨xs ++ v.data.drop xs.length, v.cap⟩, s')) := by
  simp only [Unwind.fillWith, Eff.bind_run, Unwind.get]
  have := Unwind.fillWithLoop_run f v.data [] v.cap s
  rw [h] at this
  simpa using this

/-- C133 is violated by Vec.Insert: with an index greater than Len it panics, and the value has been appended; with
another index it returns, with the value inserted. -/
theorem C133_vec_insert_fails (g : Growth) (v : Vec α) (i : Nat) (x : α) (s : σ) :
    (i ≤ v.len → ∃ cap, Unwind.insert g i x (v, s) = (.ok (), (⟨v.data.take i ++ x :: v.data.drop i, cap⟩, s))) ∧
    (v.len < i → ∃ e cap, Unwind.insert g i x (v, s) = (.error e, (⟨v.data ++ [x], cap⟩, s))) := by
  have hrun : Unwind.insert g i x (v, s) =
      match copyWithin (v.goAppend g [x]).data (i + 1) i with
      | .error e => (.error e, (v.goAppend g [x], s))
      | .ok data => match setIndex data i x with
        | .error e => (.error e, (⟨data, (v.goAppend g [x]).cap⟩, s))
        | .ok data => (.ok (), (⟨data, (v.goAppend g [x]).cap⟩, s)) := by
    simp only [Unwind.insert, Eff.bind_run, Unwind.get, Unwind.put, Eff.lift_run]
    cases copyWithin (v.goAppend g [x]).data (i + 1) i with
    | error e => rfl
    | ok data => simp only; cases setIndex data i x <;> rfl
  constructor
  · intro hi
    obtain ⟨cap, h⟩ := Vec.insert_ok g v i x hi
    refine ⟨cap, ?_⟩
    rw [hrun]
    unfold Vec.insert at h
    cases h1 : copyWithin (v.goAppend g [x]).data (i + 1) i with
    | error e => simp only [h1, Go.bind_error] at h; cases h
    | ok data =>
      simp only [h1, Go.bind_ok] at h
      simp only
      cases h2 : setIndex data i x with
      | error e => simp only [h2, Go.bind_error] at h; cases h
      | ok data' =>
        simp only [h2, Go.bind_ok] at h
        injection h with h
        simp only [h]
        rfl
  · intro hi
    have : copyWithin (v.goAppend g [x]).data (i + 1) i = .error .sliceBounds := by
      unfold copyWithin
      rw [if_neg]
      unfold Vec.len at hi
      simp [Vec.goAppend_data]; omega
    rw [hrun, this]
    exact ⟨_, (v.goAppend g [x]).cap, rfl⟩

/-! The models without the container state (Model/Vec.lean) agree. -/

theorem mapE_calls (f : α → Eff σ β) (l : List α) (s : σ) :
    mapE f l s = (outcome (calls f l s).1 (calls f l s).2.1, (calls f l s).2.2) := by
  induction l generalizing s with
  | nil => rfl
  | cons a l ih =>
    unfold mapE calls
    rw [Eff.bind_run]
    rcases f a s with ⟨e | b, s'⟩
    · rfl
    · simp only [Eff.bind_run, ih s']
      rcases calls f l s' with ⟨bs, _ | e, s''⟩ <;> rfl

/-- Give the vector variable its new value, unless there was a panic. -/
def assigned (v : Vec α) : Except Panic (Vec α) × σ → Except Panic Unit × (Vec α × σ)
  | (.ok v', s) => (.ok (), (v', s))
  | (.error e, s) => (.error e, (v, s))

theorem C133_vec_agrees (g : Growth) (keq : κ → κ → Bool) (p : α → Eff σ Bool) (key : α → Eff σ κ) (v : Vec α) (s : σ) :
    Unwind.retain g p (v, s) = assigned v (v.retain g p s) ∧
    Unwind.dedupByKey g keq key (v, s) = assigned v (v.dedupByKey g keq key s) := by
  constructor
  · rw [C133_vec_retain, (C48_retain_fillWith g v p (Eff.panic .explicit)).1, Eff.bind_run, mapE_calls]
    rcases calls p v.data s with ⟨bs, _ | e, s'⟩ <;> rfl
  · have loop : ∀ (l : List α) (seen : List κ) (acc : Vec α) (s : σ),
        Unwind.dedupByKeyLoop g keq key l seen acc (v, s) =
          ((Vec.dedupByKeyLoop g keq key l seen acc s).1, (v, (Vec.dedupByKeyLoop g keq key l seen acc s).2)) := by
      intro l
      induction l with
      | nil => intro seen acc s; rfl
      | cons a l ih =>
        intro seen acc s
        unfold Unwind.dedupByKeyLoop Vec.dedupByKeyLoop
        simp only [Eff.bind_run, Unwind.call]
        rcases key a s with ⟨e | k, s'⟩
        · rfl
        · by_cases hk : (!seen.any (keq k)) = true
          · simp only [if_pos hk]; exact ih _ _ _
          · simp only [if_neg hk]; exact ih _ _ _
    simp only [Unwind.dedupByKey, Eff.bind_run, Unwind.get, loop, Vec.dedupByKey]
    rcases Vec.dedupByKeyLoop g keq key v.data [] ⟨[], v.data.length⟩ s with ⟨e | w, s'⟩ <;> rfl

/-! ### VecDeque -/

variable [Inhabited α]

theorem Unwind.dqFillWithLoop_run (f : Eff σ α) (n : Nat) : ∀ (i : Nat) (d : VecDeque α) (s : σ) (l : List α), d.Inv →
    i + n = d.len → l = d.toList.drop i →
    ∃ d', Unwind.dqFillWithLoop f n i (d, s) =
      (outcome () (calls (fun _ : α => f) l s).2.1, (d', (calls (fun _ : α => f) l s).2.2)) ∧ d'.Inv ∧
      d'.toList = d.toList.take i ++ (calls (fun _ : α => f) l s).1 ++
        l.drop (calls (fun _ : α => f) l s).1.length := by
  induction n with
  | zero =>
    intro i d s l h hi hl
    have hlen := VecDeque.toList_length h
    have : l = [] := by rw [hl]; exact List.drop_of_length_le (by omega)
    subst this
    exact ⟨d, rfl, h, by simp [calls]; rw [List.take_of_length_le (by omega)]⟩
  | succ n ih =>
    intro i d s l h hi hl
    have hlen := VecDeque.toList_length h
    rw [List.drop_eq_getElem_cons (by omega)] at hl
    subst hl
    unfold Unwind.dqFillWithLoop calls
    rw [Eff.bind_run]
    unfold Unwind.call
    rcases f s with ⟨e | x, s'⟩
    · refine ⟨d, rfl, h, ?_⟩
      simp
    · obtain ⟨p1, p2, p3, p4, p5⟩ := VecDeque.put_eq h (k := i) (by omega) x
      simp only [Eff.bind_run, Unwind.get, Eff.lift_run, p1, Unwind.put]
      have hd : (d.put i x).toList.drop (i + 1) = d.toList.drop (i + 1) := by
        rw [p3, List.drop_set_of_lt (by omega)]
      obtain ⟨d', e1, e2, e3⟩ := ih (i + 1) (d.put i x) s' (d.toList.drop (i + 1)) p2 (by omega) hd.symm
      refine ⟨d', e1, e2, ?_⟩
      rw [e3, p3, List.take_add_one, List.getElem?_set_self (by omega), List.take_set_of_le (by omega)]
      simp
      congr 1
      omega

/-- C133: FillWith of a VecDeque, likewise. -/
theorem C133_deque_fillWith (f : Eff σ α) (d : VecDeque α) (h : d.Inv) (s : σ) (xs : List α) (o : Option Panic) (s' : σ)
    (hc : calls (fun _ : α => f) d.toList s = (xs, o, s')) :
    ∃ d', Unwind.dqFillWith f (d, s) = (outcome () o, (d', s')) ∧ d'.Inv ∧
      d'.toList = xs ++ d.toList.drop xs.length := by
  obtain ⟨d', e1, e2, e3⟩ := Unwind.dqFillWithLoop_run f d.len 0 d s d.toList h (by omega) (by simp)
  rw [hc] at e1 e3
  refine ⟨d', ?_, e2, by simpa using e3⟩
  simp only [Unwind.dqFillWith, Eff.bind_run, Unwind.get]
  exact e1

theorem Unwind.dqRetainLoop_run (f : α → Eff σ Bool) (n : Nat) : ∀ (i k : Nat) (d : VecDeque α) (s : σ) (l : List α),
    d.Inv → i + n = d.len → k ≤ i → l = d.toList.drop i →
    ∃ d', Unwind.dqRetainLoop f n i k (d, s) =
      (outcome (k + (select l (calls f l s).1).length) (calls f l s).2.1, (d', (calls f l s).2.2)) ∧ d'.Inv ∧
      d'.len = d.len ∧
      d'.toList = d.toList.take k ++ select l (calls f l s).1 ++
        d.toList.drop (k + (select l (calls f l s).1).length) := by
  induction n with
  | zero =>
    intro i k d s l h hi hk hl
    have hlen := VecDeque.toList_length h
    have : l = [] := by rw [hl]; exact List.drop_of_length_le (by omega)
    subst this
    exact ⟨d, rfl, h, rfl, by simp [calls, select]⟩
  | succ n ih =>
    intro i k d s l h hi hk hl
    have hlen := VecDeque.toList_length h
    have hil : i < d.toList.length := by omega
    rw [List.drop_eq_getElem_cons hil] at hl
    subst hl
    unfold Unwind.dqRetainLoop calls
    simp only [Eff.bind_run, Unwind.get, Eff.lift_run, VecDeque.getUnchecked_eq h hil, Unwind.call]
    rcases f d.toList[i] s with ⟨e | b, s'⟩
    · refine ⟨d, rfl, h, rfl, ?_⟩
      simp [select]
    · cases b with
      | true =>
        obtain ⟨p1, p2, p3, p4, p5⟩ := VecDeque.put_eq h (k := k) (by omega) d.toList[i]
        simp only [if_true, Eff.bind_run, Eff.lift_run, p1, Unwind.put, select_cons]
        have hd : (d.put k d.toList[i]).toList.drop (i + 1) = d.toList.drop (i + 1) := by
          rw [p3, List.drop_set_of_lt (by omega)]
        obtain ⟨d', e1, e2, e3, e4⟩ := ih (i + 1) (k + 1) (d.put k d.toList[i]) s' (d.toList.drop (i + 1)) p2 (by omega)
          (by omega) hd.symm
        refine ⟨d', ?_, e2, by omega, ?_⟩
        · rw [e1]
          simp only [List.length_cons]
          rw [Nat.add_right_comm, Nat.add_assoc]
        · rw [e4, p3, List.take_add_one, List.getElem?_set_self (by omega), List.take_set_of_le (by omega),
            List.drop_set_of_lt (by omega)]
          simp only [List.length_cons, Option.toList_some, List.append_assoc, List.singleton_append]
          rw [Nat.add_right_comm, Nat.add_assoc]
      | false =>
        simp only [Bool.false_eq_true, if_false, select_cons]
        exact ih (i + 1) k d s' _ h (by omega) (by omega) rfl

/-- C133, full property: if the predicate of VecDeque.Retain panics, the deque is as it was.  Proved: what it is for every
predicate: the elements accepted before the panic, followed by the old elements from that position on; Len is unchanged.
So it is as it was iff the accepted ones are the first elements, for example if all were accepted.  Without a panic the
accepted elements are left.  Missing: all other cases, see `C133_deque_retain_fails`. -/
theorem C133_deque_retain_partial (f : α → Eff σ Bool) (d : VecDeque α) (h : d.Inv) (s : σ) :
    ∃ d', d'.Inv ∧
      match calls f d.toList s with
      | (bs, none, s') => Unwind.dqRetain f (d, s) = (.ok (), (d', s')) ∧ d'.toList = select d.toList bs
      | (bs, some e, s') => Unwind.dqRetain f (d, s) = (.error e, (d', s')) ∧ d'.len = d.len ∧
          d'.toList = select d.toList bs ++ d.toList.drop (select d.toList bs).length ∧
          (d'.toList = d.toList ↔ select d.toList bs = d.toList.take (select d.toList bs).length) ∧
          (bs.all id = true → d'.toList = d.toList) := by
  have hl := VecDeque.toList_length h
  obtain ⟨d', e1, e2, e3, e4⟩ := Unwind.dqRetainLoop_run f d.len 0 0 d s d.toList h (by omega) (by omega) (by simp)
  have hn := calls_all f d.toList s
  have hle := calls_length f d.toList s
  rcases hc : calls f d.toList s with ⟨bs, _ | e, s'⟩
  · rw [hc] at e1 e4
    have hs := VecDeque.select_length_le d.toList bs
    obtain ⟨b1, b2⟩ := VecDeque.cut_eq e2 (m := (select d.toList bs).length) (by omega)
    refine ⟨_, b1, ?_, ?_⟩
    · simp only [Unwind.dqRetain, Eff.bind_run, Unwind.get, e1, outcome, Unwind.put, Nat.zero_add]
    · rw [b2, e4]
      simp
  · rw [hc] at e1 e4 hle
    have e4' : d'.toList = select d.toList bs ++ d.toList.drop (select d.toList bs).length := by simpa using e4
    have hiff : d'.toList = d.toList ↔ select d.toList bs = d.toList.take (select d.toList bs).length := by
      rw [e4']
      constructor
      · intro hh
        have := congrArg (List.take (select d.toList bs).length) hh
        rwa [List.take_left] at this
      · intro hh
        conv => lhs; lhs; rw [hh]
        exact List.take_append_drop _ _
    refine ⟨d', e2, ?_, e3, e4', hiff, fun hall => hiff.2 ?_⟩
    · simp only [Unwind.dqRetain, Eff.bind_run, Unwind.get, e1, outcome]
    · clear hiff e4' e4 e1 hn hc
      simp only at hle
      generalize d.toList = l at hle
      induction bs generalizing l with
      | nil => simp [select]
      | cons b bs ih =>
        cases l with
        | nil => simp at hle
        | cons a l =>
          simp only [List.all_cons, id, Bool.and_eq_true] at hall
          rw [hall.1]
          simp only [select_cons, if_true, List.length_cons, List.take_succ_cons]
          rw [← ih hall.2 l (by simpa using hle)]

/-- C133 is violated by VecDeque.Retain: the first element rejected, the second accepted, a panic on the third: the first
element is lost, the second is there twice. -/
theorem C133_deque_retain_fails (f : α → Eff σ Bool) (d : VecDeque α) (h : d.Inv) (s s1 s2 s3 : σ) (a b x : α)
    (l : List α) (e : Panic) (hd : d.toList = a :: b :: x :: l) (h1 : f a s = (.ok false, s1))
    (h2 : f b s1 = (.ok true, s2)) (h3 : f x s2 = (.error e, s3)) :
    ∃ d', Unwind.dqRetain f (d, s) = (.error e, (d', s3)) ∧ d'.toList = b :: b :: x :: l := by
  obtain ⟨d', _, hm⟩ := C133_deque_retain_partial f d h s
  have hc : calls f d.toList s = ([false, true], some e, s3) := by
    rw [hd]; simp [calls, h1, h2, h3]
  rw [hc] at hm
  refine ⟨d', hm.1, ?_⟩
  rw [hm.2.2.1, hd]
  simp [select]

theorem Unwind.dqDedupLoop_run (e : α → α → Eff σ Bool) (n : Nat) :
    ∀ (i k : Nat) (d : VecDeque α) (s : σ) (l : List α) (last : α),
    d.Inv → i + n = d.len → 0 < k → k ≤ i → d.toList[k - 1]? = some last → l = d.toList.drop i →
    ∃ d', Unwind.dqDedupLoop e n i k (d, s) =
      (outcome (k + (dedupCalls e last l s).1.length) (dedupCalls e last l s).2.2.1,
        (d', (dedupCalls e last l s).2.2.2)) ∧ d'.Inv ∧
      d'.len = d.len ∧ k + (dedupCalls e last l s).1.length ≤ d.len ∧
      d'.toList = d.toList.take k ++ (dedupCalls e last l s).1 ++
        d.toList.drop (k + (dedupCalls e last l s).1.length) := by
  induction n with
  | zero =>
    intro i k d s l last h hi hk0 hk hlast hl
    have hlen := VecDeque.toList_length h
    have : l = [] := by rw [hl]; exact List.drop_of_length_le (by omega)
    subst this
    exact ⟨d, rfl, h, rfl, by simp [dedupCalls]; omega, by simp [dedupCalls]⟩
  | succ n ih =>
    intro i k d s l last h hi hk0 hk hlast hl
    have hlen := VecDeque.toList_length h
    have hsm := h.small
    have hll := h.len_le
    have hil : i < d.toList.length := by omega
    have hku : usizeSub k 1 = k - 1 := by unfold usizeSub; omega
    obtain ⟨hkl, hkv⟩ := List.getElem?_eq_some_iff.1 hlast
    rw [List.drop_eq_getElem_cons hil] at hl
    subst hl
    unfold Unwind.dqDedupLoop dedupCalls
    simp only [Eff.bind_run, Unwind.get, Eff.lift_run, VecDeque.getUnchecked_eq h hil, hku,
      VecDeque.getUnchecked_eq h hkl, hkv, Unwind.call]
    rcases e d.toList[i] last s with ⟨x | b, s'⟩
    · exact ⟨d, rfl, h, rfl, by simp; omega, by simp⟩
    · cases b with
      | false =>
        obtain ⟨p1, p2, p3, p4, p5⟩ := VecDeque.put_eq h (k := k) (by omega) d.toList[i]
        simp only [Bool.not_false, if_true, Eff.bind_run, Eff.lift_run, p1, Unwind.put]
        have hd : (d.put k d.toList[i]).toList.drop (i + 1) = d.toList.drop (i + 1) := by
          rw [p3, List.drop_set_of_lt (by omega)]
        obtain ⟨d', e1, e2, e3, e5, e4⟩ := ih (i + 1) (k + 1) (d.put k d.toList[i]) s' (d.toList.drop (i + 1))
          d.toList[i] p2 (by omega) (by omega) (by omega)
          (by rw [p3, Nat.add_sub_cancel, List.getElem?_set_self (by omega)]) hd.symm
        have hadd : ∀ m, k + 1 + m = k + (m + 1) := fun m => by omega
        refine ⟨d', ?_, e2, by omega, by simp only [List.length_cons]; omega, ?_⟩
        · rw [e1]
          simp only [List.length_cons, hadd]
        · rw [e4, p3, List.take_add_one, List.getElem?_set_self (by omega), List.take_set_of_le (by omega),
            List.drop_set_of_lt (by omega)]
          simp only [List.length_cons, Option.toList_some, List.append_assoc, List.singleton_append, hadd]
      | true =>
        simp only [Bool.not_true, Bool.false_eq_true, if_false]
        exact ih (i + 1) k d s' _ last h (by omega) hk0 (by omega) hlast rfl

/-- C133, full property: if the Eq method of the elements panics in VecDeque.Dedup, the deque is as it was.  Proved: what it
is for every Eq method, as for Retain; without a panic the kept elements are left.  Missing: see `C133_deque_dedup_fails`. -/
theorem C133_deque_dedup_partial (e : α → α → Eff σ Bool) (d : VecDeque α) (h : d.Inv) (s : σ) (a : α) (l : List α)
    (hd : d.toList = a :: l) :
    ∃ d', d'.Inv ∧
      match dedupCalls e a l s with
      | (kept, _, none, s') => Unwind.dqDedup e (d, s) = (.ok (), (d', s')) ∧ d'.toList = a :: kept
      | (kept, _, some x, s') => Unwind.dqDedup e (d, s) = (.error x, (d', s')) ∧ d'.len = d.len ∧
          d'.toList = a :: kept ++ d.toList.drop (1 + kept.length) ∧
          (d'.toList = d.toList ↔ kept = l.take kept.length) := by
  have hl := VecDeque.toList_length h
  have hlen : d.len = l.length + 1 := by rw [← hl, hd]; rfl
  have hne : d.isEmpty = false := by unfold VecDeque.isEmpty; rw [hlen]; rfl
  obtain ⟨d', e1, e2, e3, e5, e4⟩ := Unwind.dqDedupLoop_run e (d.len - 1) 1 1 d s l a h (by omega) (by omega)
    (by omega) (by rw [hd]; rfl) (by rw [hd]; rfl)
  rcases hc : dedupCalls e a l s with ⟨kept, m, _ | x, s'⟩
  · rw [hc] at e1 e4 e5
    obtain ⟨b1, b2⟩ := VecDeque.cut_eq e2 (m := 1 + kept.length) (by simp only at e5; omega)
    refine ⟨_, b1, ?_, ?_⟩
    · simp only [Unwind.dqDedup, Eff.bind_run, Unwind.get, hne, Bool.false_eq_true, if_false, e1, outcome, Unwind.put]
    · rw [b2, e4, hd, Nat.add_comm 1]
      simp
  · rw [hc] at e1 e4
    have e4' : d'.toList = a :: kept ++ d.toList.drop (1 + kept.length) := by rw [e4, hd]; simp
    refine ⟨d', e2, ?_, e3, e4', ?_⟩
    · simp only [Unwind.dqDedup, Eff.bind_run, Unwind.get, hne, Bool.false_eq_true, if_false, e1, outcome]
    · rw [e4', hd, Nat.add_comm 1, List.drop_succ_cons, List.cons_append, List.cons.injEq]
      constructor
      · rintro ⟨-, hh⟩
        have := congrArg (List.take kept.length) hh
        rwa [List.take_left] at this
      · intro hh
        refine ⟨rfl, ?_⟩
        conv => lhs; lhs; rw [hh]
        exact List.take_append_drop _ _

/-- C133 is violated by VecDeque.Dedup: a second element equal to the first, a third one that differs and a panic on the
fourth: the second element is replaced by a copy of the third. -/
theorem C133_deque_dedup_fails (e : α → α → Eff σ Bool) (d : VecDeque α) (h : d.Inv) (s s1 s2 s3 : σ) (a b x y : α)
    (l : List α) (p : Panic) (hd : d.toList = a :: b :: x :: y :: l) (h1 : e b a s = (.ok true, s1))
    (h2 : e x a s1 = (.ok false, s2)) (h3 : e y x s2 = (.error p, s3)) :
    ∃ d', Unwind.dqDedup e (d, s) = (.error p, (d', s3)) ∧ d'.toList = a :: x :: x :: y :: l := by
  obtain ⟨d', _, hm⟩ := C133_deque_dedup_partial e d h s a _ hd
  have hc : dedupCalls e a (b :: x :: y :: l) s = ([x], 2, some p, s3) := by
    simp [dedupCalls, h1, h2, h3]
  rw [hc] at hm
  refine ⟨d', hm.1, ?_⟩
  rw [hm.2.2.1, hd]
  simp

/-! ### Examples -/

/-- Counts its calls, accepts odd numbers and panics in the k-th call. -/
def oddUntil (k : Nat) (a : Nat) : Eff Nat Bool := fun n =>
  if n = k then (.error .explicit, n + 1) else (.ok (a % 2 == 1), n + 1)

example : Unwind.retain doubling (oddUntil 2) (⟨[2, 3, 4, 5], 4⟩, 0) = (.error .explicit, (⟨[2, 3, 4, 5], 4⟩, 3)) ∧
    Unwind.retain doubling (oddUntil 9) (⟨[2, 3, 4, 5], 4⟩, 0) = (.ok (), (⟨[3, 5], 4⟩, 4)) := by decide
example : Unwind.dedupByKey doubling (· == ·) (oddUntil 2) (⟨[2, 3, 4, 5], 4⟩, 0) =
      (.error .explicit, (⟨[2, 3, 4, 5], 4⟩, 3)) ∧
    Unwind.dedupByKey doubling (· == ·) (oddUntil 9) (⟨[2, 3, 4, 5], 4⟩, 0) = (.ok (), (⟨[2, 3], 4⟩, 4)) := by decide
/-- A generator that panics in the third call. -/
def gen3 : Eff Nat Nat := fun n => if n = 2 then (.error .explicit, 3) else (.ok (10 * n), n + 1)
example : calls (fun _ : Nat => gen3) [7, 7, 7, 7] 0 = ([0, 10], some .explicit, 3) ∧
    Unwind.fillWith gen3 (⟨[7, 7, 7, 7], 4⟩, 0) = (.error .explicit, (⟨[0, 10, 7, 7], 4⟩, 3)) := by decide
example : Unwind.insert doubling 5 9 (⟨[1, 2], 2⟩, ()) = (.error .sliceBounds, (⟨[1, 2, 9], 4⟩, ())) ∧
    Unwind.insert doubling 1 9 (⟨[1, 2], 2⟩, ()) = (.ok (), (⟨[1, 9, 2], 4⟩, ())) := by decide

/-- A deque with the elements 2, 3, 4, 5 around the end of its buffer. -/
def ring2345 : VecDeque Nat := ⟨[4, 5, 0, 2, 3], 4, 3⟩
example : ring2345.toList = [2, 3, 4, 5] ∧ ring2345.Inv := ⟨rfl, by constructor <;> decide⟩
example : (Unwind.dqFillWith gen3 (ring2345, 0)).1 = .error .explicit ∧
    (Unwind.dqFillWith gen3 (ring2345, 0)).2.1.toList = [0, 10, 4, 5] := by decide
example : oddUntil 2 2 0 = (.ok false, 1) ∧ oddUntil 2 3 1 = (.ok true, 2) ∧ oddUntil 2 4 2 = (.error .explicit, 3) ∧
    (Unwind.dqRetain (oddUntil 2) (ring2345, 0)).1 = .error .explicit ∧
    (Unwind.dqRetain (oddUntil 2) (ring2345, 0)).2.1.toList = [3, 3, 4, 5] := by decide
/-- Counts its calls, compares parities and panics in the third call. -/
def par3 (a b : Nat) : Eff Nat Bool := fun n => if n = 2 then (.error .explicit, 3) else (.ok (a % 2 == b % 2), n + 1)
def ring2435 : VecDeque Nat := ⟨[3, 5, 0, 2, 4], 4, 3⟩
example : ring2435.toList = [2, 4, 3, 5] ∧ par3 4 2 0 = (.ok true, 1) ∧ par3 3 2 1 = (.ok false, 2) ∧
    par3 5 3 2 = (.error .explicit, 3) ∧ (Unwind.dqDedup par3 (ring2435, 0)).1 = .error .explicit ∧
    (Unwind.dqDedup par3 (ring2435, 0)).2.1.toList = [2, 3, 3, 5] := by decide

end Gost
