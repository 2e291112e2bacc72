import Verif.Model.Unwind
import Verif.Model.VecDeque
import Verif.Props.UnwindHeap
/-
Property C140: how often BinarySearchBy and the methods of BinaryHeap call the comparison.
-/
namespace Gost
variable {c α β γ σ : Type}

namespace Spec
/-- The callback `f`, with a counter of its calls beside its own state. -/
def counted (f : α → Eff σ β) (x : α) : Eff (σ × Nat) β := fun s => ((f x s.1).1, ((f x s.1).2, s.2 + 1))
/-- The same for a comparison. -/
def counted2 (cmp : α → α → Eff σ β) (x y : α) : Eff (σ × Nat) β := fun s =>
  ((cmp x y s.1).1, ((cmp x y s.1).2, s.2 + 1))
end Spec
open Spec

/-! ### Binary search -/

/-- The number of binary digits. -/
def digits (n : Nat) : Nat := if n = 0 then 0 else n.log2 + 1

theorem digits_half {n : Nat} (h : n ≠ 0) : digits n = digits (n / 2) + 1 := by
  unfold digits
  rw [if_neg h]
  by_cases h2 : 2 ≤ n
  · rw [if_neg (by omega), Nat.log2_def, if_pos h2]
  · have : n = 1 := by omega
    subst this
    rfl

theorem log2_mono {m n : Nat} (h : m ≤ n) : m.log2 ≤ n.log2 := by
  by_cases h0 : m = 0
  · subst h0; simp
  · have hn : n ≠ 0 := by omega
    exact (Nat.le_log2 hn).2 (Nat.le_trans (Nat.log2_self_le h0) h)

theorem digits_mono {m n : Nat} (h : m ≤ n) : digits m ≤ digits n := by
  unfold digits
  by_cases h0 : m = 0
  · rw [if_pos h0]; omega
  · rw [if_neg h0, if_neg (by omega)]
    have := log2_mono h
    omega

theorem binarySearchLoop_count (f : α → Eff σ Ordering) (data : List α) (w : Nat) : ∀ (low high : Int) (s : σ) (k : Nat),
    (high - low + 1).toNat ≤ w → (Vec.binarySearchLoop (counted f) data low high (s, k)).2.2 ≤ k + digits w := by
  induction w using Nat.strongRecOn with
  | ind w ih =>
    intro low high s k hw
    rw [Vec.binarySearchLoop]
    by_cases hlt : low ≤ high
    · have hw0 : w ≠ 0 := by omega
      have hd := digits_half hw0
      simp only [hlt, dif_pos]
      rw [Eff.bind_run]
      cases index data ((low + high) / 2).toNat with
      | error e => simp only [Eff.lift_error, Eff.panic]; omega
      | ok x =>
        simp only [Eff.lift_ok]
        show (((counted f x) >>= _) (s, k)).2.2 ≤ _
        rw [Eff.bind_run]
        unfold counted
        rcases hf : f x s with ⟨e | o, s'⟩
        · simp only; omega
        · simp only
          cases o with
          | lt =>
            have := ih (w / 2) (by omega) ((low + high) / 2 + 1) high s' (k + 1) (by omega)
            simp only
            unfold counted at this
            omega
          | gt =>
            have := ih (w / 2) (by omega) low ((low + high) / 2 - 1) s' (k + 1) (by omega)
            simp only
            unfold counted at this
            omega
          | eq => show k + 1 ≤ _; omega
    · rw [dif_neg hlt]
      show k ≤ _
      omega

/-- C140: BinarySearchBy on a Vec or VecDeque of `n` elements calls its callback at most ⌊log2 n⌋ + 1 times, and not at
all if there are none; whatever the callback answers, changes, or whether it panics, sorted or not. -/
theorem C140_binarySearchBy (f : α → Eff σ Ordering) (s : σ) (k : Nat) :
    (∀ v : Vec α, (v.binarySearchBy (counted f) (s, k)).2.2 ≤ k + (if v.len = 0 then 0 else v.len.log2 + 1)) ∧
    (∀ d : VecDeque α, (d.binarySearchBy (counted f) (s, k)).2.2 ≤ k + (if d.len = 0 then 0 else d.len.log2 + 1)) := by
  constructor
  · intro v
    refine binarySearchLoop_count f v.data v.data.length 0 _ s k ?_
    omega
  · intro d
    refine binarySearchLoop_count f d.buffer d.len 0 _ s k ?_
    omega

-- 15 elements, at most 4 calls; here the callback finds nothing, and something
example : ((⟨List.range 15, 15⟩ : Vec Nat).binarySearchBy (counted fun x => (pure (compare x 100) : Eff Unit Ordering))
    ((), 0)).2.2 = 4 := by
  simp [Vec.binarySearchBy, Vec.binarySearchLoop, counted, Eff.bind_run, index, Eff.lift_ok, Pure.pure, Eff.pure, compare,
    compareOfLessAndEq]

/-! ### Binary heap -/

namespace Unwind

/-- Once it has returned or panicked, `x` has called the comparison at most `K` times in total. -/
def Budget (K : Nat) (P : c → Nat → Prop) (x : Eff (c × (σ × Nat)) β) (Q : β → c → Nat → Prop) : Prop :=
  ∀ v s k, P v k → match x (v, (s, k)) with
    | (.ok b, t) => Q b t.1 t.2.2
    | (.error _, t) => t.2.2 ≤ K

variable {K : Nat} {P : c → Nat → Prop} {Q : β → c → Nat → Prop}

theorem Budget.pure {b : β} (h : ∀ v k, P v k → Q b v k) : Budget (σ := σ) K P (pure b) Q := fun v _ k hp => h v k hp
theorem Budget.bind {x : Eff (c × (σ × Nat)) γ} {R : γ → c → Nat → Prop} {f : γ → Eff (c × (σ × Nat)) β}
    (h1 : Budget K P x R) (h2 : ∀ b, Budget K (R b) (f b) Q) : Budget K P (x >>= f) Q := by
  intro v s k hp
  have := h1 v s k hp
  rw [Eff.bind_run]
  rcases hx : x (v, (s, k)) with ⟨_ | b, t⟩
  · rw [hx] at this; exact this
  · rw [hx] at this
    exact h2 b t.1 t.2.1 t.2.2 this
theorem Budget.get_bind {f : c → Eff (c × (σ × Nat)) β} (h : ∀ v, Budget K (fun w k => w = v ∧ P v k) (f v) Q) :
    Budget K P (get >>= f) Q := fun v s k hp => h v v s k ⟨rfl, hp⟩
theorem Budget.put_bind {w : c} {f : Unit → Eff (c × (σ × Nat)) β} {R : Nat → Prop} (hR : ∀ v k, P v k → R k)
    (h : Budget K (fun u k => u = w ∧ R k) (f ()) Q) : Budget K P (put w >>= f) Q :=
  fun v s k hp => h w s k ⟨rfl, hR v k hp⟩
theorem Budget.lift_bind {x : Go γ} {f : γ → Eff (c × (σ × Nat)) β} (hK : ∀ v k, P v k → k ≤ K)
    (h : ∀ b, x = .ok b → Budget K P (f b) Q) : Budget K P (Eff.lift x >>= f) Q := by
  cases x with
  | error e => exact fun v s k hp => hK v k hp
  | ok b => exact h b rfl
theorem Budget.call_bind {cmp : α → α → Eff σ Ordering} {a b : α} {f : Ordering → Eff (c × (σ × Nat)) β}
    {R : c → Nat → Prop} (hK : ∀ v k, P v k → k + 1 ≤ K) (hR : ∀ v k, P v k → R v (k + 1))
    (h : ∀ o, Budget K R (f o) Q) : Budget K P (call (counted2 cmp a b) >>= f) Q := by
  intro v s k hp
  rw [Eff.bind_run]
  unfold call counted2
  rcases hr : cmp a b s with ⟨e | o, s'⟩
  · exact hK v k hp
  · simp only
    exact h o v s' (k + 1) (hR v k hp)
theorem Budget.weaken {P' : c → Nat → Prop} {x : Eff (c × (σ × Nat)) β} (h : Budget K P x Q)
    (hP : ∀ v k, P' v k → P v k) : Budget K P' x Q := fun v s k hp => h v s k (hP v k hp)

theorem swap_length {v v' : Vec α} {i j : Nat} (h : v.swap i j = .ok v') : v'.data.length = v.data.length := by
  unfold Vec.swap Vec.swapData index setIndex at h
  by_cases hj : j < v.data.length
  · by_cases hi : i < v.data.length
    · rw [List.getElem?_eq_getElem hj, List.getElem?_eq_getElem hi] at h
      simp only [Go.bind_ok, hi, hj, if_true, List.length_set, Except.ok.injEq] at h
      rw [← h]; simp
    · rw [List.getElem?_eq_getElem hj, List.getElem?_eq_none (by omega)] at h
      cases h
  · rw [List.getElem?_eq_none (by omega)] at h
    cases h

variable {cmp : α → α → Eff σ Ordering}

/-- One call for every level above `pos`. -/
theorem siftUpLoop_count (n start : Nat) (elt : α) (fuel : Nat) : ∀ pos,
    Budget K (fun v k => v.data.length = n ∧ k + (pos + 1).log2 ≤ K)
      (siftUpLoop (counted2 cmp) start fuel elt pos) (fun _ v k => v.data.length = n ∧ k ≤ K) := by
  induction fuel with
  | zero => intro pos; exact Budget.pure fun v k h => ⟨h.1, by omega⟩
  | succ fuel ih =>
    intro pos
    unfold siftUpLoop
    by_cases hp : pos > start
    · have hl : (pos + 1).log2 = ((pos - 1) / 2 + 1).log2 + 1 := by
        rw [Nat.log2_def, if_pos (by omega)]
        have : (pos + 1) / 2 = (pos - 1) / 2 + 1 := by omega
        rw [this]
      rw [if_pos hp]
      refine Budget.get_bind fun v => Budget.lift_bind (fun w k h => by omega) fun p _ => ?_
      refine Budget.call_bind (R := fun w k => w = v ∧ v.data.length = n ∧ k + ((pos - 1) / 2 + 1).log2 ≤ K)
        (fun w k h => by omega) (fun w k h => ⟨h.1, h.2.1, by omega⟩) fun o => ?_
      by_cases ho : o = .lt ∨ o = .eq
      · rw [if_pos ho]
        exact Budget.pure fun w k h => ⟨by rw [h.1]; exact h.2.1, by omega⟩
      · rw [if_neg ho]
        refine Budget.lift_bind (fun w k h => by omega) fun v' hv' => ?_
        refine Budget.put_bind (R := fun k => v.data.length = n ∧ k + ((pos - 1) / 2 + 1).log2 ≤ K)
          (fun w k h => ⟨h.2.1, h.2.2⟩) ((ih _).weaken fun w k h => ⟨?_, h.2.2⟩)
        rw [h.1, swap_length hv']
        exact h.2.1
    · rw [if_neg hp]
      exact Budget.pure fun v k h => ⟨h.1, by omega⟩

theorem siftUp_count (n start pos : Nat) :
    Budget K (fun v k => v.data.length = n ∧ k + (pos + 1).log2 ≤ K)
      (siftUp (counted2 cmp) start pos) (fun _ v k => v.data.length = n ∧ k ≤ K) := by
  unfold siftUp
  refine Budget.get_bind fun v => Budget.lift_bind (fun w k h => by omega) fun e _ => ?_
  exact (siftUpLoop_count n start e _ pos).weaken fun w k h => ⟨by rw [h.1]; exact h.2.1, h.2.2⟩

theorem push_count (g : Growth) (item : α) (n : Nat) :
    Budget K (fun v k => v.data.length = n ∧ k + (n + 1).log2 ≤ K) (push g (counted2 cmp) item)
      (fun _ v k => v.data.length = n + 1 ∧ k ≤ K) := by
  unfold push
  refine Budget.get_bind fun v => ?_
  by_cases hn : v.data.length = n
  · refine Budget.put_bind (R := fun k => k + (n + 1).log2 ≤ K) (fun w k h => h.2.2) ?_
    have hlen : (v.push g item).data.length = n + 1 := by simp [Vec.push, Vec.goAppend, hn]
    refine Budget.bind (R := fun _ v k => v.data.length = n + 1 ∧ k ≤ K)
      ((siftUp_count (n + 1) 0 v.len).weaken fun w k h => ?_) fun _ => Budget.pure fun v k h => h
    rw [h.1]
    exact ⟨hlen, by unfold Vec.len; rw [hn]; exact h.2⟩
  · intro w s k h; exact absurd h.2.1 hn

/-- One call for every level below. -/
theorem siftDownLoop_count (n end_ : Nat) (fuel : Nat) : ∀ pos child, child = 2 * pos + 1 → pos + 1 ≤ end_ →
    Budget K (fun v k => v.data.length = n ∧ k ≤ (pos + 1).log2 + (K - end_.log2) ∧ end_.log2 ≤ K)
      (siftDownLoop (counted2 cmp) end_ fuel pos child)
      (fun r v k => v.data.length = n ∧ k ≤ K ∧ ∀ p ch, r = some (p, ch) → p + 1 ≤ end_) := by
  induction fuel with
  | zero =>
    intro pos child _ hpe
    have := log2_mono hpe
    exact Budget.pure fun v k h => ⟨h.1, by omega, by intro p ch h; cases h⟩
  | succ fuel ih =>
    intro pos child hc hpe
    have hm := log2_mono hpe
    unfold siftDownLoop
    by_cases hlt : child ≤ end_ - 2
    · have hl : (pos + 1).log2 + 1 = (2 * (pos + 1)).log2 := (Nat.log2_two_mul (by omega)).symm
      have hm2 : (2 * (pos + 1)).log2 ≤ end_.log2 := log2_mono (by omega)
      rw [if_pos hlt]
      refine Budget.get_bind fun v => Budget.lift_bind (fun w k h => by omega) fun a _ =>
        Budget.lift_bind (fun w k h => by omega) fun b _ => ?_
      refine Budget.call_bind (R := fun w k => w = v ∧ v.data.length = n ∧
        k ≤ (2 * (pos + 1)).log2 + (K - end_.log2) ∧ end_.log2 ≤ K)
        (fun w k h => by omega) (fun w k h => ⟨h.1, h.2.1, by omega, h.2.2.2⟩) fun o => ?_
      simp only
      generalize hch : (if o = .lt ∨ o = .eq then child + 1 else child) = ch
      have hch' : child ≤ ch ∧ ch ≤ child + 1 := by
        rw [← hch]; split <;> omega
      have hm3 : (2 * (pos + 1)).log2 ≤ (ch + 1).log2 := log2_mono (by omega)
      refine Budget.lift_bind (fun w k h => by omega) fun v' hv' => ?_
      refine Budget.put_bind (R := fun k => v.data.length = n ∧ k ≤ (2 * (pos + 1)).log2 + (K - end_.log2) ∧ end_.log2 ≤ K)
        (fun w k h => h.2) ((ih ch _ rfl (by omega)).weaken fun w k h => ⟨?_, by omega, h.2.2.2⟩)
      rw [h.1, swap_length hv']; exact h.2.1
    · rw [if_neg hlt]
      exact Budget.pure fun v k h => ⟨h.1, by omega, by intro p ch h; cases h; exact hpe⟩

theorem siftDownToBottom_count (n : Nat) (hn : 0 < n) :
    Budget K (fun v k => v.data.length = n ∧ k + 2 * n.log2 ≤ K) (siftDownToBottom (counted2 cmp) 0)
      (fun _ v k => v.data.length = n ∧ k ≤ K) := by
  suffices main : ∀ k0, k0 + 2 * n.log2 ≤ K → Budget K (fun v k => v.data.length = n ∧ k = k0)
      (siftDownToBottom (counted2 cmp) 0) (fun _ v k => v.data.length = n ∧ k ≤ K) from
    fun v s k h => main k h.2 v s k ⟨h.1, rfl⟩
  intro k0 h0
  unfold siftDownToBottom
  refine Budget.get_bind fun v => ?_
  by_cases hvn : v.data.length = n
  rotate_left
  · intro w s k h; exact absurd h.2.1 hvn
  refine Budget.lift_bind (fun w k h => by omega) fun _ _ => ?_
  have hlen : v.len = n := hvn
  rw [hlen]
  have h1 := siftDownLoop_count (K := k0 + n.log2) (cmp := cmp) n n (n + 1) 0 (2 * 0 + 1) rfl (by omega)
  have h2 : Budget K (fun w k => w = v ∧ v.data.length = n ∧ k = k0) (siftDownLoop (counted2 cmp) n (n + 1) 0 (2 * 0 + 1))
      (fun r v k => v.data.length = n ∧ k ≤ k0 + n.log2 ∧ ∀ p ch, r = some (p, ch) → p + 1 ≤ n) := by
    intro w s k h
    have hz : (0 + 1).log2 = 0 := rfl
    have := h1 w s k ⟨by rw [h.1]; exact hvn, by omega, by omega⟩
    rcases hx : siftDownLoop (counted2 cmp) n (n + 1) 0 (2 * 0 + 1) (w, (s, k)) with ⟨_ | b, t⟩
    · rw [hx] at this; simp only at this ⊢; omega
    · rw [hx] at this; exact this
  refine Budget.bind h2 fun r => ?_
  cases r with
  | none => exact Budget.pure fun v k h => ⟨h.1, by omega⟩
  | some r =>
    obtain ⟨hole, child⟩ := r
    simp only
    by_cases hc : child = n - 1
    · rw [if_pos hc]
      refine Budget.get_bind fun v => Budget.lift_bind (fun w k h => by omega) fun v' hv' => ?_
      refine Budget.put_bind (R := fun k => v.data.length = n ∧ k ≤ k0 + n.log2) (fun w k h => ⟨h.2.1, h.2.2.1⟩) ?_
      refine Budget.bind (R := fun _ v k => v.data.length = n ∧ k ≤ K)
        ((siftUp_count n 0 child).weaken fun w k h => ⟨?_, ?_⟩) fun _ => Budget.pure fun v k h => h
      · rw [h.1, swap_length hv']; exact h.2.1
      · have : child + 1 = n := by omega
        rw [this]; omega
    · rw [if_neg hc]
      refine Budget.bind (R := fun _ v k => v.data.length = n ∧ k ≤ K)
        ((siftUp_count n 0 hole).weaken fun w k h => ⟨h.1, ?_⟩) fun _ => Budget.pure fun v k h => h
      have := log2_mono (h.2.2 hole child rfl)
      omega

theorem pop_count (n : Nat) :
    Budget K (fun v k => v.data.length = n ∧ k + 2 * n.log2 ≤ K) (pop (counted2 cmp))
      (fun _ v k => v.data.length = n - 1 ∧ k ≤ K) := by
  unfold pop
  refine Budget.get_bind fun v => ?_
  by_cases hvn : v.data.length = n
  rotate_left
  · intro w s k h; exact absurd h.2.1 hvn
  refine Budget.lift_bind (fun w k h => by omega) fun r hr => ?_
  obtain ⟨v', o⟩ := r
  have hlen : v'.data.length = n - 1 := by
    unfold Vec.pop at hr
    by_cases h0 : v.data.length = 0
    · rw [if_pos h0] at hr
      cases hr; omega
    · rw [if_neg h0] at hr
      unfold index at hr
      rw [List.getElem?_eq_getElem (by omega)] at hr
      simp only [Go.bind_ok, Except.ok.injEq, Prod.mk.injEq] at hr
      rw [← hr.1]; simp; omega
  simp only
  refine Budget.put_bind (R := fun k => k + 2 * n.log2 ≤ K) (fun w k h => h.2.2) ?_
  by_cases ho : o.isNone = true
  · rw [if_pos ho]
    exact Budget.pure fun w k h => ⟨by rw [h.1]; exact hlen, by omega⟩
  · rw [if_neg ho]
    refine Budget.lift_bind (fun w k h => by omega) fun item _ => ?_
    by_cases he : (!v'.isEmpty) = true
    · rw [if_pos he]
      have hpos : 0 < n - 1 := by
        rw [← hlen]
        simp [Vec.isEmpty, Vec.len] at he
        exact List.length_pos_iff.2 he
      refine Budget.lift_bind (fun w k h => by omega) fun x _ => Budget.lift_bind (fun w k h => by omega) fun v2 hv2 => ?_
      have hlen2 : v2.data.length = n - 1 := by
        unfold Vec.setUnchecked setIndex at hv2
        rw [if_pos (by omega)] at hv2
        simp only [Go.bind_ok, Except.ok.injEq] at hv2
        rw [← hv2]; simpa using hlen
      refine Budget.put_bind (R := fun k => k + 2 * n.log2 ≤ K) (fun w k h => h.2) ?_
      refine Budget.bind (R := fun _ v k => v.data.length = n - 1 ∧ k ≤ K)
        ((siftDownToBottom_count (n - 1) hpos).weaken fun w k h => ⟨by rw [h.1]; exact hlen2, ?_⟩) fun _ =>
          Budget.pure fun v k h => h
      have := log2_mono (show n - 1 ≤ n by omega)
      omega
    · rw [if_neg he]
      exact Budget.pure fun w k h => ⟨by rw [h.1]; exact hlen, by omega⟩

theorem pushAll_count (g : Growth) (N : Nat) (items : List α) : ∀ n, n + items.length ≤ N →
    Budget K (fun v k => v.data.length = n ∧ k + items.length * N.log2 ≤ K) (pushAll g (counted2 cmp) items)
      (fun _ _ k => k ≤ K) := by
  induction items with
  | nil => intro n _; exact Budget.pure fun v k h => by omega
  | cons item rest ih =>
    intro n hn
    simp only [List.length_cons] at hn
    suffices main : ∀ k0, k0 + (rest.length + 1) * N.log2 ≤ K → Budget K (fun v k => v.data.length = n ∧ k = k0)
        (pushAll g (counted2 cmp) (item :: rest)) (fun _ _ k => k ≤ K) from
      fun v s k h => main k h.2 v s k ⟨h.1, rfl⟩
    intro k0 h0
    rw [Nat.succ_mul] at h0
    have hm := log2_mono (show n + 1 ≤ N by omega)
    unfold pushAll
    have h1 : Budget K (fun v k => v.data.length = n ∧ k = k0) (push g (counted2 cmp) item)
        (fun _ v k => v.data.length = n + 1 ∧ k ≤ k0 + N.log2) := by
      intro v s k h
      have := push_count (K := k0 + N.log2) (cmp := cmp) g item n v s k ⟨h.1, by omega⟩
      rcases hx : push g (counted2 cmp) item (v, (s, k)) with ⟨_ | b, t⟩
      · rw [hx] at this; simp only at this ⊢; omega
      · rw [hx] at this; exact this
    refine Budget.bind h1 fun r => ?_
    cases r with
    | none => exact Budget.pure fun v k h => by omega
    | some u => exact (ih (n + 1) (by omega)).weaken fun v k h => ⟨h.1, by omega⟩

theorem sortedLoop_count (N : Nat) (fuel : Nat) : ∀ (n : Nat) (out : Vec α) (idx : Nat), n ≤ N →
    Budget K (fun v k => v.data.length = n ∧ k + n * (2 * N.log2) ≤ K) (sortedLoop (counted2 cmp) fuel out idx)
      (fun _ _ k => k ≤ K) := by
  induction fuel with
  | zero => intro n out idx _; exact Budget.pure fun v k h => by omega
  | succ fuel ih =>
    intro n out idx hn
    suffices main : ∀ k0, k0 + n * (2 * N.log2) ≤ K → Budget K (fun v k => v.data.length = n ∧ k = k0)
        (sortedLoop (counted2 cmp) (fuel + 1) out idx) (fun _ _ k => k ≤ K) from
      fun v s k h => main k h.2 v s k ⟨h.1, rfl⟩
    intro k0 h0
    have hm := log2_mono hn
    unfold sortedLoop
    refine Budget.get_bind fun v => ?_
    by_cases hvn : v.data.length = n
    rotate_left
    · intro w s k h; exact absurd h.2.1 hvn
    by_cases he : (!v.isEmpty) = true
    · rw [if_pos he]
      have hpos : 0 < n := by
        rw [← hvn]
        simp [Vec.isEmpty, Vec.len] at he
        exact List.length_pos_iff.2 he
      obtain ⟨n, rfl⟩ : ∃ m, n = m + 1 := ⟨n - 1, by omega⟩
      rw [Nat.succ_mul] at h0
      have h1 : Budget K (fun w k => w = v ∧ v.data.length = n + 1 ∧ k = k0) (pop (counted2 cmp))
          (fun _ v k => v.data.length = n ∧ k ≤ k0 + 2 * N.log2) := by
        intro w s k h
        have := pop_count (K := k0 + 2 * N.log2) (cmp := cmp) (n + 1) w s k ⟨by rw [h.1]; exact h.2.1, by omega⟩
        rcases hx : pop (counted2 cmp) (w, (s, k)) with ⟨_ | b, t⟩
        · rw [hx] at this; simp only at this ⊢; omega
        · rw [hx] at this; exact this
      refine Budget.bind h1 fun r => ?_
      cases r with
      | none => exact Budget.pure fun v k h => by omega
      | some o =>
        refine Budget.lift_bind (fun w k h => by omega) fun x _ => Budget.lift_bind (fun w k h => by omega) fun out' _ => ?_
        exact (ih n out' _ (by omega)).weaken fun v k h => ⟨h.1, by omega⟩
    · rw [if_neg he]
      exact Budget.pure fun w k h => by omega

theorem Budget.total {x : Eff (c × (σ × Nat)) β} (h : Budget K P x fun _ _ k => k ≤ K) {v : c} {s : σ} {k : Nat}
    (hp : P v k) : (x (v, (s, k))).2.2.2 ≤ K := by
  have := h v s k hp
  rcases hx : x (v, (s, k)) with ⟨_ | b, t⟩ <;> rw [hx] at this <;> exact this
theorem Budget.drop {x : Eff (c × (σ × Nat)) β} {R : β → c → Prop} (h : Budget K P x fun b v k => R b v ∧ k ≤ K) :
    Budget K P x fun _ _ k => k ≤ K := by
  intro v s k hp
  have := h v s k hp
  rcases hx : x (v, (s, k)) with ⟨_ | b, t⟩
  · rw [hx] at this; exact this
  · rw [hx] at this; exact this.2
end Unwind
open Unwind

/-- C140: on a BinaryHeap of `n` elements Push calls Cmp at most ⌊log2 (n + 1)⌋ times, Pop at most 2 ⌊log2 n⌋ times,
Append of `m` elements at most m ⌊log2 (2 (n + m))⌋ times (its Reserve adds
zero values, C94) and IntoSortedVec at most 2 n ⌊log2 n⌋ times; whatever Cmp
answers, changes, or whether it panics, and whether or not the vector satisfies the order of a heap. -/
theorem C140_heap [Inhabited α] (g : Growth) (cmp : α → α → Eff σ Ordering) (v other : Vec α) (item : α) (s : σ) (k : Nat) :
    (Unwind.push g (counted2 cmp) item (v, (s, k))).2.2.2 ≤ k + (v.len + 1).log2 ∧
    (Unwind.pop (counted2 cmp) (v, (s, k))).2.2.2 ≤ k + 2 * v.len.log2 ∧
    (Unwind.append g (counted2 cmp) other (v, (s, k))).2.2.2 ≤ k + other.len * (2 * (v.len + other.len)).log2 ∧
    (Unwind.intoSortedVec (counted2 cmp) (v, (s, k))).2.2.2 ≤ k + v.len * (2 * v.len.log2) := by
  refine ⟨?_, ?_, ?_, ?_⟩
  · exact (push_count g item v.len).drop.total ⟨rfl, Nat.le_refl _⟩
  · exact (pop_count v.len).drop.total ⟨rfl, Nat.le_refl _⟩
  · refine Budget.total (P := fun w l => w = v ∧ l = k) ?_ ⟨rfl, rfl⟩
    unfold Unwind.append
    refine Budget.get_bind fun v' => ?_
    by_cases hv' : v' = v
    · subst hv'
      refine Budget.lift_bind (fun w l h => by omega) fun v2 hv2 => ?_
      refine Budget.put_bind (R := fun l => l = k) (fun w l h => h.2.2) ?_
      have hle : v2.data.length ≤ v'.len + (v'.len + other.len) := by
        unfold Vec.reserve at hv2
        have hu : usize (v'.len + other.len) ≤ v'.len + other.len := Nat.mod_le _ _
        by_cases hc : v'.capacity < usize (v'.len + usize (v'.len + other.len))
        · rw [if_pos hc] at hv2
          cases hm : makeLen (usize (v'.len + other.len)) with
          | error e => rw [hm] at hv2; cases hv2
          | ok u =>
            rw [hm] at hv2
            simp only [Go.bind_ok, Except.ok.injEq] at hv2
            rw [← hv2]
            simp only [Vec.goAppend, List.length_append, List.length_replicate]
            unfold Vec.len at *
            omega
        · rw [if_neg hc] at hv2
          cases hv2
          unfold Vec.len; omega
      refine (pushAll_count g (2 * (v'.len + other.len)) other.data v2.data.length ?_).weaken fun w l h => ⟨?_, ?_⟩
      · unfold Vec.len at *; omega
      · rw [h.1]
      · rw [h.2]; exact Nat.le_refl _
    · intro w s l h; exact absurd h.2.1 hv'
  · refine Budget.total (P := fun w l => w = v ∧ l = k) ?_ ⟨rfl, rfl⟩
    unfold Unwind.intoSortedVec
    refine Budget.get_bind fun v' => ?_
    by_cases hv' : v' = v
    · subst hv'
      refine Budget.lift_bind (fun w l h => by omega) fun out hout => ?_
      refine (sortedLoop_count v'.len _ v'.len out _ (Nat.le_refl _)).weaken fun w l h => ⟨?_, ?_⟩
      · rw [h.1]
      · rw [h.2.2]; exact Nat.le_refl _
    · intro w s l h; exact absurd h.2.1 hv'

-- a heap of 7: Push needs as many calls as it may
example : (Unwind.push doubling (counted2 fun a b => (pure (compare a b) : Eff Unit Ordering)) 9
    (⟨[7, 6, 5, 4, 3, 2, 1], 7⟩, ((), 0))).2.2.2 = (7 + 1).log2 ∧
    (Unwind.pop (counted2 fun a b => (pure (compare a b) : Eff Unit Ordering))
      (⟨[9, 7, 8, 6, 3, 2, 1], 7⟩, ((), 0))).2.2.2 ≤ 2 * (7).log2 ∧
    (Unwind.pop (counted2 fun a b => (pure (compare a b) : Eff Unit Ordering))
      (⟨[9, 7, 8, 6, 3, 2, 1], 7⟩, ((), 0))).2.2.2 = 2 := by decide +kernel
-- a comparison that panics in its second call: two calls
example : (Unwind.push doubling (counted2 (panicAt 1)) 9 (⟨[7, 6, 5, 4, 3, 2, 1], 7⟩, (0, 0))).2.2.2 = 2 := by decide +kernel

end Gost
