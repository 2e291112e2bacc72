import Verif.Model.BTreeUnwind
import Verif.Props.UnwindHeap
import Verif.Lemmas.BTreeInsert
/-
Runs of Model/BTreeUnwind.lean that return are runs of Model/BTree.lean.
-/
namespace Gost.Unwind
open Spec BTree

variable {c κ ν σ β γ : Type}

/-- A panic may be anything and leave anything. -/
abbrev Ret (P : c → Prop) (x : Eff (c × σ) β) (Q : β → c → Prop) : Prop :=
  Triple (fun _ => True) P x Q (fun _ => True)

theorem Ret.lift {P : c → Prop} {x : Go β} {Q : β → c → Prop} (h : ∀ b v, P v → x = .ok b → Q b v) :
    Ret P (Eff.lift x : Eff (c × σ) β) Q := by
  intro v s hp
  cases x with
  | error e => exact ⟨trivial, trivial⟩
  | ok b => exact h b v hp rfl
theorem Ret.lift_bind {P : c → Prop} {x : Go γ} {f : γ → Eff (c × σ) β} {Q : β → c → Prop}
    (h : ∀ b, x = .ok b → Ret P (f b) Q) : Ret P (Eff.lift x >>= f) Q := by
  cases x with
  | error e => intro v s _; exact ⟨trivial, trivial⟩
  | ok b => exact h b rfl
theorem Ret.call_bind {cmp : κ → κ → Eff σ Ordering} {ord : κ → κ → Ordering} (ha : Answers cmp ord) {a b : κ}
    {P : c → Prop} {f : Ordering → Eff (c × σ) β} {Q : β → c → Prop} (h : Ret P (f (ord a b)) Q) :
    Ret P (call (cmp a b) >>= f) Q :=
  Triple.call_bind_ok (fun _ _ _ => trivial) (fun _ _ => trivial)
    (fun o s s' ho => by rw [ha a b s o s' ho]; exact h)
theorem Ret.get_bind {h : c} {f : c → Eff (c × σ) β} {Q : β → c → Prop} (hf : Ret (fun w => w = h) (f h) Q) :
    Ret (fun w => w = h) (get >>= f) Q :=
  Triple.get_bind fun v hv => by subst hv; exact hf

theorem Triple.given {E : Panic → Prop} {X : c → Prop} {p : Prop} {h : c} {x : Eff (c × σ) β} {Q : β → c → Prop}
    (hx : p → Triple E (fun w => w = h) x Q X) : Triple E (fun w => w = h ∧ p) x Q X :=
  fun v s hv => hx hv.2 v s hv.1

theorem set_same {l : List β} {i : Nat} {x : β} (h : l[i]? = some x) : l.set i x = l := by
  apply List.ext_getElem?
  intro j
  by_cases hj : i = j
  · subst hj
    rw [List.getElem?_set_self (List.getElem?_eq_some_iff.1 h).1, h]
  · rw [List.getElem?_set_ne hj]

theorem load_inv {h : BStore κ ν} {a : Nat} {node : BNode κ ν} (hl : load h (some a) = .ok node) :
    h[a]? = some node := by
  simp only [load] at hl
  cases hn : h[a]? with
  | none => rw [hn] at hl; cases hl
  | some n => rw [hn] at hl; cases hl; rfl

section
variable {cmp : κ → κ → Eff σ Ordering} {ord : κ → κ → Ordering}

theorem searchIdx_ret (ha : Answers cmp ord) (key : κ) (h : BStore κ ν) (ks : List (Option κ)) :
    Ret (fun w => w = h) (searchIdx cmp key ks) (fun i w => w = h ∧ i = BTree.searchIdx ord key ks) := by
  induction ks with
  | nil => exact Triple.pure fun v hv => ⟨hv, rfl⟩
  | cons k ks ih =>
    cases k with
    | none => exact Triple.pure fun v hv => ⟨hv, rfl⟩
    | some k =>
      refine Ret.call_bind ha ?_
      by_cases ho : ord key k = .gt
      · rw [if_pos ho]
        refine Triple.bind ih fun i => Triple.pure fun v hv => ⟨hv.1, ?_⟩
        rw [hv.2, BTree.searchIdx, if_pos ho]
      · rw [if_neg ho]
        exact Triple.pure fun v hv => ⟨hv, by rw [BTree.searchIdx, if_neg ho]⟩

theorem search_ret (ha : Answers cmp ord) (key : κ) (h : BStore κ ν) (d : Nat) : ∀ a,
    Ret (fun w => w = h) (search cmp key d a) (fun r w => w = h ∧ BTree.search ord h key d a = .ok r) := by
  induction d with
  | zero => intro a v s _; exact ⟨trivial, trivial⟩
  | succ d ih =>
    intro a
    refine Ret.get_bind (Ret.lift_bind fun self hself => ?_)
    refine Triple.bind (searchIdx_ret ha key h self.keys) fun i => ?_
    have hrest : BTree.search ord h key (d + 1) a = (match self.keys[BTree.searchIdx ord key self.keys]? with
      | some (some k) =>
        if ord key k = .eq then .ok (some (a, BTree.searchIdx ord key self.keys))
        else if self.leaf then .ok none
        else do
          let child ← getAt self.childs (BTree.searchIdx ord key self.keys)
          match child with
          | some c => BTree.search ord h key d c
          | none => .ok none
      | _ =>
        if self.leaf then .ok none
        else do
          let child ← getAt self.childs (BTree.searchIdx ord key self.keys)
          match child with
          | some c => BTree.search ord h key d c
          | none => .ok none) := by
      rw [BTree.search, hself, Go.bind_ok]
      rfl
    rw [hrest]
    have tail : ∀ i : Nat, Ret (σ := σ) (fun w => w = h) (if self.leaf then pure none else do
        let child ← Eff.lift (getAt self.childs i)
        match child with
        | some c => search cmp key d c
        | none => pure none) (fun r w => w = h ∧ (if self.leaf then .ok none
        else do
          let child ← getAt self.childs i
          match child with
          | some c => BTree.search ord h key d c
          | none => .ok none) = (.ok r : Go (Option (Nat × Nat)))) := by
      intro i
      by_cases hl : self.leaf = true
      · rw [if_pos hl, if_pos hl]
        exact Triple.pure fun v hv => ⟨hv, rfl⟩
      · rw [if_neg hl, if_neg hl]
        refine Ret.lift_bind fun child hchild => ?_
        rw [hchild, Go.bind_ok]
        cases child with
        | none => exact Triple.pure fun v hv => ⟨hv, rfl⟩
        | some c => exact ih c
    refine Triple.given fun hi => ?_
    rw [← hi]
    clear hi hrest
    rcases hk : self.keys[i]? with _ | _ | k
    · exact tail i
    · exact tail i
    · simp only
      refine Triple.bind (R := fun b w => w = h ∧ b = decide (ord key k = .eq)) ?_ fun b => ?_
      · exact Ret.call_bind ha (Triple.pure fun v hv => ⟨hv, rfl⟩)
      · by_cases ho : ord key k = .eq
        · rw [if_pos ho]
          refine Triple.given fun hb => ?_
          rw [hb, decide_eq_true ho]
          exact Triple.pure fun v hv => ⟨hv, rfl⟩
        · rw [if_neg ho]
          refine Triple.given fun hb => ?_
          rw [hb, decide_eq_false ho]
          exact tail i

theorem leafLoop_ret (ha : Answers cmp ord) (key : κ) (a : Nat) (n : Nat) : ∀ (h : BStore κ ν) (self : BNode κ ν),
    h[a]? = some self → Ret (fun w => w = h) (leafLoop cmp key a n) (fun i w => ∃ ks vs,
      BTree.leafLoop ord key n self.keys self.values = .ok (ks, vs, i) ∧
      w = h.set a { self with keys := ks, values := vs }) := by
  induction n with
  | zero =>
    intro h self hs
    exact Triple.pure fun v hv => ⟨_, _, rfl, hv.trans (set_same hs).symm⟩
  | succ i ih =>
    intro h self hs
    refine Ret.get_bind (Ret.lift_bind fun self' hself => ?_)
    rw [load_of hs] at hself
    cases hself
    refine Ret.lift_bind fun k hk => ?_
    cases k with
    | none =>
      refine Triple.pure fun v hv => ⟨_, _, ?_, hv.trans (set_same hs).symm⟩
      rw [BTree.leafLoop, hk]; rfl
    | some k =>
      refine Ret.call_bind ha ?_
      by_cases ho : ord k key = .gt
      · rw [if_pos ho]
        refine Ret.lift_bind fun ks hks => Triple.put_bind (Ret.lift_bind fun v hv => Ret.lift_bind fun vs hvs =>
          Triple.put_bind ?_)
        have hlt : a < h.length := (List.getElem?_eq_some_iff.1 hs).1
        refine (ih _ { self with keys := ks, values := vs } (List.getElem?_set_self hlt)).conseq ?_
        rintro j w ⟨ks', vs', e1, e2⟩
        refine ⟨ks', vs', ?_, by rw [e2, List.set_set]⟩
        simp only [BTree.leafLoop, hk, Go.bind_ok, ho, if_true, hks, hv, hvs]
        exact e1
      · rw [if_neg ho]
        refine Triple.pure fun v hv => ⟨_, _, ?_, hv.trans (set_same hs).symm⟩
        simp only [BTree.leafLoop, hk, Go.bind_ok, ho, if_false]

theorem insertLeaf_ret (ha : Answers cmp ord) (h : BStore κ ν) (a : Nat) (key : κ) (value : ν) :
    Ret (fun w => w = h) (insertLeaf cmp a key value) (fun _ w => BTree.insertLeaf ord h a key value = .ok w) := by
  refine Ret.get_bind (Ret.lift_bind fun self hself => ?_)
  have hs := load_inv hself
  have hlt : a < h.length := (List.getElem?_eq_some_iff.1 hs).1
  refine Triple.bind (leafLoop_ret ha key a self.n.toNat h self hs) fun i => ?_
  by_cases hn : self.n < 0
  · rw [if_pos hn]
    intro v s _; exact ⟨trivial, trivial⟩
  · rw [if_neg hn]
    refine Triple.get_bind fun w ⟨ks, vs, e1, e2⟩ => ?_
    subst e2
    refine Ret.lift_bind fun self' hs' => ?_
    rw [load_of (List.getElem?_set_self hlt)] at hs'
    cases hs'
    refine Ret.lift_bind fun ks' hks => Ret.lift_bind fun vs' hvs => Triple.put ?_
    simp only [BTree.insertLeaf, hself, Go.bind_ok, e1, if_neg hn]
    simp only at hks hvs
    rw [hks, Go.bind_ok, hvs, Go.bind_ok, List.set_set]

theorem childLoop_ret (ha : Answers cmp ord) (key : κ) (h : BStore κ ν) (ks : List (Option κ)) (n : Nat) :
    Ret (fun w => w = h) (childLoop cmp key ks n) (fun i w => w = h ∧ BTree.childLoop ord key ks n = .ok i) := by
  induction n with
  | zero => exact Triple.pure fun v hv => ⟨hv, rfl⟩
  | succ i ih =>
    refine Ret.lift_bind fun k hk => ?_
    rw [BTree.childLoop, hk, Go.bind_ok]
    cases k with
    | none => exact Triple.pure fun v hv => ⟨hv, rfl⟩
    | some k =>
      refine Ret.call_bind ha ?_
      simp only
      by_cases ho : ord k key = .gt
      · rw [if_pos ho, if_pos ho]; exact ih
      · rw [if_neg ho, if_neg ho]; exact Triple.pure fun v hv => ⟨hv, rfl⟩

theorem insertNonFull_ret (ha : Answers cmp ord) (key : κ) (value : ν) (d : Nat) : ∀ (h : BStore κ ν) (a : Nat),
    Ret (fun w => w = h) (insertNonFull cmp key value d a)
      (fun _ w => BTree.insertNonFull ord key value d h a = .ok w) := by
  induction d with
  | zero => intro h a v s _; exact ⟨trivial, trivial⟩
  | succ d ih =>
    intro h a
    refine Ret.get_bind (Ret.lift_bind fun self hself => ?_)
    simp only [BTree.insertNonFull, hself, Go.bind_ok]
    by_cases hl : self.leaf = true
    · rw [if_pos hl, if_pos hl]
      exact insertLeaf_ret ha h a key value
    · rw [if_neg hl, if_neg hl]
      refine Triple.bind (childLoop_ret ha key h self.keys self.n.toNat) fun i => ?_
      refine Triple.given fun hi => ?_
      rw [hi]
      simp only [Go.bind_ok]
      by_cases hn : self.n < 0
      · rw [if_pos hn]
        intro v s _; exact ⟨trivial, trivial⟩
      · rw [if_neg hn, if_neg hn]
        refine Ret.lift_bind fun c hc => Ret.lift_bind fun child hchild => ?_
        simp only [hc, Go.bind_ok, hchild]
        by_cases hf : child.keys.length = capacity
        · rw [if_pos hf, if_pos hf]
          refine Ret.lift_bind fun y hy => Ret.lift_bind fun h1 hh1 => Triple.put_bind ?_
          refine Ret.lift_bind fun self1 hself1 => Ret.lift_bind fun k hk => ?_
          simp only [hy, Go.bind_ok, hh1, hself1, hk]
          cases k with
          | none =>
            simp only
            rw [Eff.pure_bind]
            refine Ret.lift_bind fun c1 hc1 => Ret.lift_bind fun c2 hc2 => ?_
            rw [hc1, Go.bind_ok, hc2, Go.bind_ok]
            exact ih h1 c2
          | some k =>
            simp only
            rw [Eff.bind_assoc]
            refine Ret.call_bind ha ?_
            rw [Eff.pure_bind]
            refine Ret.lift_bind fun c1 hc1 => Ret.lift_bind fun c2 hc2 => ?_
            rw [hc1, Go.bind_ok, hc2, Go.bind_ok]
            exact ih h1 c2
        · rw [if_neg hf, if_neg hf]
          refine Ret.lift_bind fun c1 hc1 => ?_
          rw [hc1, Go.bind_ok]
          exact ih h c1

theorem bInsert_ret (ha : Answers cmp ord) (h : BStore κ ν) (m : BMap) (key : κ) (value : ν) :
    Ret (fun w => w = h) (bInsert cmp m key value)
      (fun r w => BMap.insert ord h m key value = .ok (w, r.1, r.2)) := by
  unfold bInsert BMap.insert
  cases m.root with
  | none =>
    simp only
    refine Ret.get_bind (Ret.lift_bind fun ks hks => Ret.lift_bind fun vs hvs => Triple.put_bind ?_)
    rw [hks, Go.bind_ok, hvs, Go.bind_ok]
    exact Triple.pure fun v hv => by rw [hv]
  | some root =>
    simp only
    refine Ret.get_bind (Triple.bind (search_ret ha key h _ root) fun r => ?_)
    refine Triple.given fun hr => ?_
    rw [hr]
    simp only [Go.bind_ok]
    cases r with
    | some p =>
      obtain ⟨a, i⟩ := p
      simp only
      refine Ret.lift_bind fun node hnode => Ret.lift_bind fun old hold => Ret.lift_bind fun vs hvs => Triple.put_bind
        (Ret.lift_bind fun o ho => ?_)
      rw [hnode, Go.bind_ok, hold, Go.bind_ok, hvs, Go.bind_ok, ho, Go.bind_ok]
      exact Triple.pure fun v hv => by rw [hv]
    | none =>
      simp only
      refine Ret.lift_bind fun rn hrn => ?_
      rw [hrn, Go.bind_ok]
      by_cases hf : rn.n = capacity
      · rw [if_pos hf, if_pos hf]
        refine Ret.lift_bind fun cs hcs => Ret.lift_bind fun h1 hh1 => Triple.put_bind ?_
        refine Ret.lift_bind fun nr hnr => Ret.lift_bind fun k hk => Ret.lift_bind fun k' hk' => Ret.call_bind ha ?_
        refine Ret.lift_bind fun c hc => Ret.lift_bind fun c' hc' => ?_
        simp only [hcs, Go.bind_ok, hh1, hnr, hk, hk', hc, hc']
        refine Triple.bind (insertNonFull_ret ha key value _ h1 c') fun _ => Triple.pure fun w hw => ?_
        rw [hw]; rfl
      · rw [if_neg hf, if_neg hf]
        refine Triple.bind (insertNonFull_ret ha key value _ h root) fun _ => Triple.pure fun w hw => ?_
        rw [hw]; rfl

theorem findKeyLoop_ret (ha : Answers cmp ord) (key : κ) (n : Int) (h : BStore κ ν) (ks : List (Option κ)) : ∀ i,
    Ret (fun w => w = h) (findKeyLoop cmp key n ks i)
      (fun j w => w = h ∧ BTree.findKeyLoop ord key n ks i = .ok j) := by
  induction ks with
  | nil =>
    intro i
    unfold findKeyLoop BTree.findKeyLoop
    by_cases hi : i < n
    · rw [if_pos hi]; intro v s _; exact ⟨trivial, trivial⟩
    · rw [if_neg hi, if_neg hi]; exact Triple.pure fun v hv => ⟨hv, rfl⟩
  | cons k ks ih =>
    intro i
    unfold BTree.findKeyLoop
    cases k with
    | none =>
      refine Triple.pure fun v hv => ⟨hv, ?_⟩
      split <;> rfl
    | some k =>
      unfold findKeyLoop
      by_cases hi : i < n
      · rw [if_pos hi, if_pos hi]
        refine Ret.call_bind ha ?_
        simp only
        by_cases ho : ord k key = .lt
        · rw [if_pos ho, if_pos ho]; exact ih _
        · rw [if_neg ho, if_neg ho]; exact Triple.pure fun v hv => ⟨hv, rfl⟩
      · rw [if_neg hi, if_neg hi]; exact Triple.pure fun v hv => ⟨hv, rfl⟩

theorem removeFromNonLeaf_ret {remE : Nat → κ → Eff (BStore κ ν × σ) Unit}
    {rem : BStore κ ν → Nat → κ → Go (BStore κ ν)}
    (hrem : ∀ h a k, Ret (fun w => w = h) (remE a k) (fun _ w => rem h a k = .ok w)) (h : BStore κ ν) (a : Nat)
    (idx : Int) : Ret (fun w => w = h) (removeFromNonLeaf remE a idx)
      (fun _ w => BTree.removeFromNonLeaf rem h a idx = .ok w) := by
  unfold removeFromNonLeaf BTree.removeFromNonLeaf
  refine Ret.get_bind (Ret.lift_bind fun self hself => Ret.lift_bind fun key hkey => Ret.lift_bind fun n1 hn1 => ?_)
  simp only [hself, Go.bind_ok, hkey, hn1]
  by_cases h1 : n1 ≥ self.minDeg
  · rw [if_pos h1, if_pos h1]
    refine Ret.lift_bind fun p hp => Ret.lift_bind fun pred hpred => Ret.lift_bind fun k hk => Ret.lift_bind fun ks hks =>
      Ret.lift_bind fun v hv => Ret.lift_bind fun vs hvs => Triple.put_bind (Ret.lift_bind fun c hc =>
      Ret.lift_bind fun c' hc' => Ret.lift_bind fun pk hpk => ?_)
    simp only [hp, Go.bind_ok, hpred, hk, hks, hv, hvs, hc, hc', hpk]
    exact hrem _ _ _
  · rw [if_neg h1, if_neg h1]
    refine Ret.lift_bind fun n2 hn2 => ?_
    rw [hn2, Go.bind_ok]
    by_cases h2 : n2 ≥ self.minDeg
    · rw [if_pos h2, if_pos h2]
      refine Ret.lift_bind fun p hp => Ret.lift_bind fun pred hpred => Ret.lift_bind fun k hk => Ret.lift_bind fun ks hks =>
        Ret.lift_bind fun v hv => Ret.lift_bind fun vs hvs => Triple.put_bind (Ret.lift_bind fun c hc =>
        Ret.lift_bind fun c' hc' => Ret.lift_bind fun pk hpk => ?_)
      simp only [hp, Go.bind_ok, hpred, hk, hks, hv, hvs, hc, hc', hpk]
      exact hrem _ _ _
    · rw [if_neg h2, if_neg h2]
      refine Ret.lift_bind fun h' hh' => Triple.put_bind (Ret.lift_bind fun self' hself' => Ret.lift_bind fun c hc =>
        Ret.lift_bind fun c' hc' => Ret.lift_bind fun pk hpk => ?_)
      simp only [hh', Go.bind_ok, hself', hc, hc', hpk]
      exact hrem _ _ _

theorem removeNode_ret (ha : Answers cmp ord) (d : Nat) : ∀ (h : BStore κ ν) (a : Nat) (key : κ),
    Ret (fun w => w = h) (removeNode cmp d a key) (fun _ w => BTree.removeNode ord d h a key = .ok w) := by
  induction d with
  | zero => intro h a key v s _; exact ⟨trivial, trivial⟩
  | succ d ih =>
    intro h a key
    refine Ret.get_bind (Ret.lift_bind fun self hself => ?_)
    refine Triple.bind (findKeyLoop_ret ha key self.n h self.keys 0) fun i => ?_
    refine Triple.given fun hi => ?_
    simp only [BTree.removeNode, hself, Go.bind_ok, BTree.findKey, hi]
    refine Triple.bind (R := fun b w => w = h ∧ (if i < self.n then do
        let k ← getAt self.keys i
        match k with
        | some k => (.ok (decide (ord k key = Ordering.eq)) : Go Bool)
        | none => .ok false
      else .ok false) = .ok b) ?_ fun b => ?_
    · by_cases hlt : i < self.n
      · rw [if_pos hlt, if_pos hlt]
        refine Ret.lift_bind fun k hk => ?_
        rw [hk, Go.bind_ok]
        cases k with
        | none => exact Triple.pure fun v hv => ⟨hv, rfl⟩
        | some k => exact Ret.call_bind ha (Triple.pure fun v hv => ⟨hv, rfl⟩)
      · rw [if_neg hlt, if_neg hlt]
        exact Triple.pure fun v hv => ⟨hv, rfl⟩
    · refine Triple.given fun hb => ?_
      erw [hb]
      simp only [Go.bind_ok]
      cases b with
      | true =>
        simp only [if_true]
        by_cases hl : self.leaf = true
        · rw [if_pos hl, if_pos hl]
          exact Ret.lift_bind fun h' hh' => Triple.put hh'
        · rw [if_neg hl, if_neg hl]
          exact removeFromNonLeaf_ret ih h a i
      | false =>
        simp only [Bool.false_eq_true, if_false]
        by_cases hl : self.leaf = true
        · rw [if_pos hl, if_pos hl]
          exact Triple.pure fun v hv => by rw [hv]
        · rw [if_neg hl, if_neg hl]
          refine Ret.lift_bind fun n hn => Ret.lift_bind fun h' hh' => Triple.put_bind (Ret.lift_bind fun self' hself' => ?_)
          simp only [hn, Go.bind_ok, hh', hself']
          by_cases hfl : (decide (i = self.n) && decide (i > self'.n)) = true
          · rw [if_pos hfl, if_pos hfl]
            refine Ret.lift_bind fun c hc => Ret.lift_bind fun c' hc' => ?_
            rw [hc, Go.bind_ok, hc', Go.bind_ok]
            exact ih _ _ _
          · rw [if_neg hfl, if_neg hfl]
            refine Ret.lift_bind fun c hc => Ret.lift_bind fun c' hc' => ?_
            rw [hc, Go.bind_ok, hc', Go.bind_ok]
            exact ih _ _ _

theorem bRemove_ret (ha : Answers cmp ord) (h : BStore κ ν) (m : BMap) (key : κ) :
    Ret (fun w => w = h) (bRemove cmp m key) (fun r w => BMap.remove ord h m key = .ok (w, r.1, r.2)) := by
  unfold bRemove BMap.remove
  cases m.root with
  | none => exact Triple.pure fun v hv => by rw [hv]
  | some root =>
    simp only
    refine Ret.get_bind (Triple.bind (search_ret ha key h _ root) fun r => ?_)
    refine Triple.given fun hr => ?_
    rw [hr]
    simp only [Go.bind_ok]
    refine Triple.bind (removeNode_ret ha _ h root key) fun _ => Triple.get_bind fun h' hh' => ?_
    simp only [hh', Go.bind_ok]
    refine Ret.lift_bind fun rn hrn => Ret.lift_bind fun nr hnr => ?_
    simp only [hrn, Go.bind_ok, hnr]
    cases r with
    | none => exact Triple.pure fun v hv => by rw [hv]
    | some p =>
      simp only
      refine Ret.lift_bind fun node hnode => Ret.lift_bind fun w hw => Ret.lift_bind fun w' hw' => ?_
      rw [hnode, Go.bind_ok, hw, Go.bind_ok, hw', Go.bind_ok]
      exact Triple.pure fun v hv => by rw [hv]

theorem bGet_ret (ha : Answers cmp ord) (h : BStore κ ν) (m : BMap) (key : κ) :
    Ret (fun w => w = h) (bGet cmp m key) (fun r w => w = h ∧ BMap.get ord h m key = .ok r) := by
  unfold bGet BMap.get
  cases m.root with
  | none => exact Triple.pure fun v hv => ⟨hv, rfl⟩
  | some root =>
    simp only
    refine Ret.get_bind (Triple.bind (search_ret ha key h _ root) fun r => ?_)
    refine Triple.given fun hr => ?_
    rw [hr]
    simp only [Go.bind_ok]
    cases r with
    | none => exact Triple.pure fun v hv => ⟨hv, rfl⟩
    | some p =>
      simp only
      refine Ret.lift_bind fun node hnode => Ret.lift_bind fun w hw => Ret.lift_bind fun w' hw' => ?_
      rw [hnode, Go.bind_ok, hw, Go.bind_ok, hw', Go.bind_ok]
      exact Triple.pure fun v hv => ⟨hv, rfl⟩

theorem bContainsKey_ret (ha : Answers cmp ord) (h : BStore κ ν) (m : BMap) (key : κ) :
    Ret (fun w => w = h) (bContainsKey cmp m key) (fun r w => w = h ∧ BMap.containsKey ord h m key = .ok r) := by
  unfold bContainsKey BMap.containsKey
  cases m.root with
  | none => exact Triple.pure fun v hv => ⟨hv, rfl⟩
  | some root =>
    simp only
    refine Ret.get_bind (Triple.bind (search_ret ha key h _ root) fun r => ?_)
    refine Triple.pure fun v hv => ⟨hv.1, ?_⟩
    rw [hv.2]; rfl
end

end Gost.Unwind
