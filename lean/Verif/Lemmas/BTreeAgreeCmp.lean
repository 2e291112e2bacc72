import Verif.Lemmas.BTreeAgree
import Verif.Lemmas.BTreeApart
/-
Insert and Remove of Model/BTreeSteps.lean do what those of Model/BTree.lean do, in a heap where children are leaves and
different nodes.
-/
namespace Gost.Steps
open BTree Unwind Spec
variable {κ ν σ α β γ δ : Type} {cmp : κ → κ → Eff σ Ordering} {ord : κ → κ → Ordering} {h : BStore κ ν}
  {out : β → α × BStore κ ν} {a b : Nat} {na nb : BNode κ ν} {P : κ → ν → Prop}

theorem getAt_cast {α : Type} (l : List α) (i : Nat) : getAt l (i : Int) = index l i := by
  unfold getAt
  rw [if_neg (by omega), Int.toNat_natCast]
theorem setAt_cast {α : Type} (l : List α) (i : Nat) (v : α) : setAt l (i : Int) v = setIndex l i v := by
  unfold setAt
  rw [if_neg (by omega), Int.toNat_natCast]

theorem Agrees.call_bind (hA : Answers cmp ord) {x y : κ} {f : Ordering → Eff (BStore κ ν × σ) α} {p : Go β}
    (hf : Agrees (Raises cmp) (f (ord x y)) h p out) : Agrees (Raises cmp) (call (cmp x y) >>= f) h p out := by
  intro s
  rw [Eff.bind_run]
  unfold call
  rcases hr : cmp x y s with ⟨e | o, s'⟩
  · have he : Raises cmp e := ⟨x, y, s, by rw [hr]⟩
    exact ⟨fun _ _ => .inr ⟨e, _, rfl, he⟩, fun _ _ => ⟨e, _, rfl, .inr he⟩⟩
  · rw [hA x y s o s' hr]
    exact hf s'

theorem searchIdx_agrees (hA : Answers cmp ord) {key : κ} (ks : List (Option κ)) :
    Agrees (Raises cmp) (Unwind.searchIdx cmp key ks) h (.ok (BTree.searchIdx ord key ks)) fun i => (i, h) := by
  induction ks with
  | nil => exact Agrees.pure rfl
  | cons k ks ih =>
    cases k with
    | none => exact Agrees.pure rfl
    | some k =>
      unfold Unwind.searchIdx BTree.searchIdx
      refine Agrees.call_bind hA ?_
      split
      · exact Agrees.bind ih (q := fun i => .ok (i + 1)) fun i _ => Agrees.pure rfl
      · exact Agrees.pure rfl

theorem search_agrees (hA : Answers cmp ord) {key : κ} (d : Nat) : ∀ (a : Nat),
    Agrees (Raises cmp) (Unwind.search cmp key d a) h (BTree.search ord h key d a) fun r => (r, h) := by
  induction d with
  | zero => intro a; exact Agrees.panic
  | succ d ih =>
    intro a
    unfold Unwind.search BTree.search
    refine Agrees.get_bind (Agrees.lift_bind fun self _ => ?_)
    refine Agrees.bind (searchIdx_agrees hA self.keys) (q := fun i => ?_) fun i hi => ?_
    rotate_left
    · cases hi
      simp only
      have hrest : Agrees (Raises cmp) (if self.leaf then pure none else do
          let child ← Eff.lift (getAt self.childs (BTree.searchIdx ord key self.keys))
          match child with
          | some c => Unwind.search cmp key d c
          | none => pure none) h (if self.leaf then .ok none else do
          let child ← getAt self.childs (BTree.searchIdx ord key self.keys)
          match child with
          | some c => BTree.search ord h key d c
          | none => .ok none) fun r => (r, h) := by
        split
        · exact Agrees.pure rfl
        · refine Agrees.lift_bind fun c _ => ?_
          cases c with
          | none => exact Agrees.pure rfl
          | some c => exact ih c
      generalize self.keys[BTree.searchIdx ord key self.keys]? = o
      rcases o with _ | _ | k
      · simp only
        rw [Eff.pure_bind, if_neg (by simp)]
        exact hrest
      · simp only
        rw [Eff.pure_bind, if_neg (by simp)]
        exact hrest
      · simp only
        rw [Eff.bind_assoc]
        refine Agrees.call_bind hA ?_
        rw [Eff.pure_bind]
        by_cases hc : ord key k = .eq
        · rw [if_pos (by simpa using hc), if_pos hc]; exact Agrees.pure rfl
        · rw [if_neg (by simpa using hc), if_neg hc]; exact hrest

theorem leafLoop_agrees (hA : Answers cmp ord) {key : κ} (n : Nat) : ∀ {h : BStore κ ν} {na : BNode κ ν}, h[a]? = some na →
    Agrees (Raises cmp) (Unwind.leafLoop cmp key a n) h (BTree.leafLoop ord key n na.keys na.values)
      fun r => (r.2.2, h.set a { na with keys := r.1, values := r.2.1 }) := by
  induction n with
  | zero => intro h na ha; exact Agrees.pure (by simp only; rw [set_same ha])
  | succ n ih =>
    intro h na ha
    unfold Unwind.leafLoop BTree.leafLoop
    refine Agrees.get_bind (Agrees.lift_skip (load_of ha) (Agrees.lift_bind fun k _ => ?_))
    cases k with
    | none => exact Agrees.pure (by simp only; rw [set_same ha])
    | some k' =>
      simp only
      refine Agrees.call_bind hA ?_
      split
      · refine Agrees.lift_bind fun ks _ => ?_
        refine Agrees.step (h' := h.set a { na with keys := ks }) (v := ()) (fun _ => rfl) ?_
        refine Agrees.lift_bind fun v _ => Agrees.lift_bind fun vs _ => ?_
        refine Agrees.step (h' := h.set a { na with keys := ks, values := vs }) (v := ()) (fun _ => rfl) ?_
        refine (ih (got ha _)).conv fun r _ => ?_
        rw [List.set_set]
      · exact Agrees.pure (by simp only; rw [set_same ha])

theorem insertLeaf_agrees (hA : Answers cmp ord) {key : κ} {value : ν} (ha : h[a]? = some na) :
    Agrees (Raises cmp) (insertLeaf cmp a key value) h (BTree.insertLeaf ord h a key value) fun h' => ((), h') := by
  unfold insertLeaf BTree.insertLeaf
  rw [load_of ha, Go.bind_ok]
  refine Agrees.node_bind ha (Agrees.bind (leafLoop_agrees hA _ ha) fun r _ => ?_)
  obtain ⟨ks, vs, i⟩ := r
  simp only
  split
  · exact Agrees.panic
  rw [← setAt_cast]
  refine Agrees.setKey_bind (got ha _) fun ks2 _ => ?_
  simp only
  rw [← setAt_cast, List.set_set]
  refine Agrees.setValue_bind (got ha _) fun vs2 _ => ?_
  rw [List.set_set]
  refine Agrees.node_bind (got ha _) (Agrees.of_bind (Agrees.setN_bind (got ha _) (Agrees.pure ?_)))
  rw [List.set_set]

theorem childLoop_agrees (hA : Answers cmp ord) {key : κ} {ks : List (Option κ)} (n : Nat) :
    Agrees (Raises cmp) (Unwind.childLoop cmp key ks n) h (BTree.childLoop ord key ks n) fun i => (i, h) := by
  induction n with
  | zero => exact Agrees.pure rfl
  | succ n ih =>
    unfold Unwind.childLoop BTree.childLoop
    refine Agrees.lift_bind fun k _ => ?_
    cases k with
    | none => exact Agrees.pure rfl
    | some k =>
      simp only
      refine Agrees.call_bind hA ?_
      split
      · exact ih
      · exact Agrees.pure rfl

theorem splitChild_kept {h' : BStore κ ν} {y : Nat} {i : Int} {yn : BNode κ ν} (ha : h[a]? = some na) (hy : h[y]? = some yn)
    (hay : a ≠ y) (he : BTree.splitChild h a i y = .ok h') : ∃ na', h'[a]? = some na' ∧ na'.minDeg = na.minDeg ∧ na'.leaf = na.leaf := by
  unfold BTree.splitChild at he
  rw [load_of ha, Go.bind_ok, load_of hy, Go.bind_ok] at he
  obtain ⟨⟨zk, zv⟩, _, he⟩ := bind_ok_inv he
  obtain ⟨zc, _, he⟩ := bind_ok_inv he
  obtain ⟨s2, hs2, he⟩ := bind_ok_inv he
  obtain ⟨cs, hcs, he⟩ := bind_ok_inv he
  obtain ⟨cs2, hcs2, he⟩ := bind_ok_inv he
  obtain ⟨⟨ks, vs⟩, _, he⟩ := bind_ok_inv he
  obtain ⟨k, _, he⟩ := bind_ok_inv he
  obtain ⟨ks2, _, he⟩ := bind_ok_inv he
  obtain ⟨v, _, he⟩ := bind_ok_inv he
  obtain ⟨vs2, _, he⟩ := bind_ok_inv he
  cases he
  have hs2 := load_inv hs2
  have h1 := hs2
  rw [List.getElem?_set_ne (Ne.symm hay), got_app ha] at h1
  cases h1
  exact ⟨_, got hs2 _, rfl, rfl⟩

theorem insertNonFull_agrees (hA : Answers cmp ord) {key : κ} {value : ν} (d : Nat) :
    ∀ {h : BStore κ ν} {a : Nat}, HeapOk P h → a < h.length →
    Agrees (Raises cmp) (insertNonFull cmp key value d a) h (BTree.insertNonFull ord key value d h a) fun h' => ((), h') := by
  induction d with
  | zero => intro h a _ _; exact Agrees.panic
  | succ d ih =>
    intro h a ho hlt
    have ha : h[a]? = some h[a] := List.getElem?_eq_getElem hlt
    generalize h[a] = na at ha
    unfold insertNonFull BTree.insertNonFull
    rw [load_of ha, Go.bind_ok]
    refine Agrees.node_bind ha ?_
    by_cases hl : na.leaf = true
    · rw [if_pos hl, if_pos hl]
      exact insertLeaf_agrees hA ha
    rw [if_neg hl, if_neg hl]
    simp only [Bool.not_eq_true] at hl
    have hk := (ho a na ha).kids hl
    refine Agrees.bind (childLoop_agrees hA _) fun i _ => ?_
    by_cases hn : na.n < 0
    · rw [if_pos hn, if_pos hn]; exact Agrees.panic
    rw [if_neg hn, if_neg hn]
    simp only
    rw [← getAt_cast]
    refine Agrees.childAt_bind ha fun c hc => Agrees.load_bind fun c' child hc' hch => ?_
    subst hc'
    by_cases hf : child.keys.length = capacity
    · rw [if_pos hf, if_pos hf, Eff.bind_assoc]
      rw [show addr (some c') = .ok c' from rfl, Go.bind_ok]
      refine Agrees.lift_skip rfl ?_
      rw [Eff.bind_assoc]
      have hcl := hk.get hc c' rfl
      have hac := leafy_ne ha hl hcl
      refine Agrees.bind (splitChild_agrees ha hch hac) fun h1 hsp => ?_
      simp only
      obtain ⟨na1, ha1, _, hl1⟩ := splitChild_kept ha hch hac hsp
      have k1 := splitChild_keeps ho ha (fun _ => .inr hcl) hsp
      rw [load_of ha1, Go.bind_ok, Eff.bind_assoc, ← getAt_cast]
      refine Agrees.keyAt_bind ha1 fun k _ => ?_
      have hgo : ∀ i : Nat, Agrees (Raises cmp) (do
          let c ← childAt a (i : Int)
          let c ← Eff.lift (addr c)
          insertNonFull cmp key value d c) h1 (do
          let c ← index na1.childs i
          let c ← addr c
          BTree.insertNonFull ord key value d h1 c) fun h' => ((), h') := by
        intro i
        rw [← getAt_cast]
        refine Agrees.childAt_bind ha1 fun c hc => Agrees.lift_bind fun c' hc' => ?_
        cases addr_inv hc'
        obtain ⟨n, hn, _⟩ := ((k1.1 a na1 ha1).kids (hl1.trans hl)).get hc c' rfl
        exact ih k1.1 (List.getElem?_eq_some_iff.1 hn).1
      cases k with
      | none =>
        simp only
        rw [Eff.pure_bind]
        exact hgo i
      | some k =>
        simp only
        rw [Eff.bind_assoc]
        refine Agrees.call_bind hA ?_
        rw [Eff.pure_bind]
        exact hgo _
    · rw [if_neg hf, if_neg hf, Eff.pure_bind]
      refine Agrees.step (h' := h) (v := some c') (fun s => ?_) ?_
      · unfold childAt
        rw [Eff.bind_run, node_run ha]
        simp only [hc]
        rfl
      · refine Agrees.lift_bind fun c hc2 => ?_
        cases addr_inv hc2
        exact ih ho (List.getElem?_eq_some_iff.1 hch).1

theorem findKeyLoop_agrees (hA : Answers cmp ord) {key : κ} {n : Int} (ks : List (Option κ)) : ∀ (i : Int),
    Agrees (Raises cmp) (Unwind.findKeyLoop cmp key n ks i) h (BTree.findKeyLoop ord key n ks i) fun j => (j, h) := by
  induction ks with
  | nil =>
    intro i
    unfold Unwind.findKeyLoop BTree.findKeyLoop
    split
    · exact Agrees.panic
    · exact Agrees.pure rfl
  | cons k ks ih =>
    intro i
    cases k with
    | none =>
      unfold Unwind.findKeyLoop BTree.findKeyLoop
      split <;> exact Agrees.pure rfl
    | some k =>
      unfold Unwind.findKeyLoop BTree.findKeyLoop
      split
      · simp only
        refine Agrees.call_bind hA ?_
        split
        · exact ih _
        · exact Agrees.pure rfl
      · exact Agrees.pure rfl

theorem go_assoc {x : Go α} {f : α → Go β} {g : β → Go γ} : (x >>= f) >>= g = x >>= fun a => f a >>= g := by
  cases x <;> rfl
theorem Agrees.childN_bind {E : Panic → Prop} {i : Int} {f : Int → Eff (BStore κ ν × σ) α} {q : Int → Go β} (ha : h[a]? = some na)
    (hf : ∀ n, Agrees E (f n) h (q n) out) :
    Agrees E (childN a i >>= f) h (BTree.childN h na i >>= q) out := by
  unfold childN BTree.childN
  rw [Eff.bind_assoc, go_assoc]
  refine Agrees.childAt_bind ha fun c _ => ?_
  rw [Eff.bind_assoc, go_assoc]
  refine Agrees.load_bind fun c' n _ _ => ?_
  rw [Eff.pure_bind]
  exact hf _

theorem fill_agrees {E : Panic → Prop} {idx : Int} (ho : HeapOk P h) (hs : Sep h) (ha : h[a]? = some na) (hl : na.leaf = false)
    (hx : idx ≤ na.n) : Agrees (σ := σ) E (fill a idx) h (BTree.fill h a idx) fun h' => ((), h') := by
  have hk := (ho a na ha).kids hl
  have hap := hs a na ha hl
  have hm : ∀ i : Int, i + 1 ≤ na.n → ∀ c, getAt na.childs i = .ok (some c) → getAt na.childs (i + 1) ≠ .ok (some c) :=
    fun i hi c hc => hap.ne (by omega) hi (by omega) hc
  unfold fill BTree.fill
  rw [load_of ha, Go.bind_ok]
  refine Agrees.node_bind ha ?_
  refine Agrees.bind (mid := fun b => (b, h)) ?_ fun prev _ => ?_
  · split
    · exact Agrees.childN_bind ha fun n => Agrees.pure rfl
    · exact Agrees.pure rfl
  simp only
  split
  · exact borrowFromPrev_agrees ha hl hk fun c hc => hap.ne hx (by omega) (by omega) hc
  refine Agrees.bind (mid := fun b => (b, h)) (p := if idx ≠ na.n then do
        let n ← BTree.childN h na (idx + 1)
        .ok (decide (n ≥ na.minDeg))
      else .ok false) ?_ fun next hnext => ?_
  · split
    · exact Agrees.childN_bind ha fun n => Agrees.pure rfl
    · exact Agrees.pure rfl
  simp only
  split
  · next hn =>
    have hlt : idx + 1 ≤ na.n := by
      by_cases he : idx = na.n
      · rw [if_neg (by simpa using he)] at hnext
        cases hnext
        cases hn
      · omega
    exact borrowFromNext_agrees ha hl hk (hm idx hlt)
  split
  · exact merge_agrees ha hl hk (hm idx (by omega))
  · exact merge_agrees ha hl hk (hm (idx - 1) (by omega))

theorem predLoop_leaf (d : Nat) : ∀ {p : Option Nat} {r : Nat}, predLoop h d p = .ok r → Leafy h r := by
  induction d with
  | zero => intro p r he; cases he
  | succ d ih =>
    intro p r he
    unfold predLoop at he
    obtain ⟨curr, hc, he⟩ := bind_ok_inv he
    split at he
    · next hl => cases addr_inv he; exact ⟨curr, load_inv hc, hl⟩
    · obtain ⟨c, _, he⟩ := bind_ok_inv he
      exact ih he
theorem succLoop_leaf (d : Nat) : ∀ {p : Option Nat} {r : Nat}, succLoop h d p = .ok r → Leafy h r := by
  induction d with
  | zero => intro p r he; cases he
  | succ d ih =>
    intro p r he
    unfold succLoop at he
    obtain ⟨curr, hc, he⟩ := bind_ok_inv he
    split at he
    · next hl => cases addr_inv he; exact ⟨curr, load_inv hc, hl⟩
    · obtain ⟨c, _, he⟩ := bind_ok_inv he
      exact ih he

theorem Agrees.last {E : Panic → Prop} {k : Option κ} {c : Option Nat} {f : Nat → κ → Eff (BStore κ ν × σ) α} {q : Nat → κ → Go β}
    (hf : ∀ k' c', k = some k' → c = some c' → Agrees E (f c' k') h (q c' k') out) :
    Agrees E (do let k ← Eff.lift (deref k); let c ← Eff.lift (addr c); f c k) h
      (do let c ← addr c; let k ← deref k; q c k) out := by
  cases k with
  | none =>
    cases c with
    | none => exact Agrees.panic
    | some c => exact Agrees.panic
  | some k =>
    cases c with
    | none => exact Agrees.panic
    | some c => exact hf k c rfl rfl

theorem removeFromNonLeaf_agrees {E : Panic → Prop} {remE : Nat → κ → Eff (BStore κ ν × σ) Unit}
    {rem : BStore κ ν → Nat → κ → Go (BStore κ ν)}
    (ih : ∀ {h : BStore κ ν} {a : Nat} {k : κ}, HeapOk P h → Sep h → a < h.length →
      Agrees E (remE a k) h (rem h a k) fun h' => ((), h'))
    {idx : Int} (ho : HeapOk P h) (hs : Sep h) (ha : h[a]? = some na) (hl : na.leaf = false) (hx : idx + 1 ≤ na.n) :
    Agrees E (removeFromNonLeaf remE a idx) h (BTree.removeFromNonLeaf rem h a idx) fun h' => ((), h') := by
  have hn := ho a na ha
  have hk := hn.kids hl
  have hap := hs a na ha hl
  unfold removeFromNonLeaf BTree.removeFromNonLeaf
  rw [load_of ha, Go.bind_ok]
  refine Agrees.keyAt_bind ha fun key _ => Agrees.node_bind ha (Agrees.childN_bind ha fun n1 => ?_)
  split
  · refine Agrees.get_bind (Agrees.lift_bind fun p hp => ?_)
    have hpl : Leafy h p := by
      unfold getPred at hp
      obtain ⟨c, _, hp⟩ := bind_ok_inv hp
      exact predLoop_leaf _ hp
    have hap' := leafy_ne ha hl hpl
    obtain ⟨pn, hpn, _⟩ := hpl
    rw [load_of hpn, Go.bind_ok]
    refine Agrees.node_bind hpn (Agrees.copySlot_bind ha hpn fun k ks v vs hk1 hks hv hvs => ?_)
    have hp1 := got_ne hpn hap' { na with keys := ks, values := vs }
    have ha1 := got ha { na with keys := ks, values := vs }
    have k1 := ho.set (node' := { na with keys := ks, values := vs }) ha rfl
      ⟨hn.slots.setAt ((ho p pn hpn).slots.get hk1 hv) hks hvs, hn.clen, hn.kids⟩
    have hs1 : Sep (h.set a { na with keys := ks, values := vs }) := hs.set fun _ => hap
    refine Agrees.childAt_bind (na := { na with keys := ks, values := vs }) ha1 fun c hc => Agrees.node_bind hp1 ?_
    refine Agrees.step (h' := h.set a { na with keys := ks, values := vs }) (v := k) (fun s => ?_) (Agrees.last fun k' c' _ hc' => ?_)
    · unfold keyAt
      rw [Eff.bind_run, node_run hp1]
      simp only [hk1]
      rfl
    subst hc'
    obtain ⟨n, hn, _⟩ := ((k1.1 a _ ha1).kids hl).get hc c' rfl
    exact ih k1.1 hs1 (List.getElem?_eq_some_iff.1 hn).1
  refine Agrees.childN_bind ha fun n2 => ?_
  split
  · refine Agrees.get_bind (Agrees.lift_bind fun p hp => ?_)
    have hpl : Leafy h p := by
      unfold getSucc at hp
      obtain ⟨c, _, hp⟩ := bind_ok_inv hp
      exact succLoop_leaf _ hp
    have hap' := leafy_ne ha hl hpl
    obtain ⟨pn, hpn, _⟩ := hpl
    rw [load_of hpn, Go.bind_ok]
    refine Agrees.copySlot_bind ha hpn fun k ks v vs hk1 hks hv hvs => ?_
    have hp1 := got_ne hpn hap' { na with keys := ks, values := vs }
    have ha1 := got ha { na with keys := ks, values := vs }
    have k1 := ho.set (node' := { na with keys := ks, values := vs }) ha rfl
      ⟨hn.slots.setAt ((ho p pn hpn).slots.get hk1 hv) hks hvs, hn.clen, hn.kids⟩
    have hs1 : Sep (h.set a { na with keys := ks, values := vs }) := hs.set fun _ => hap
    refine Agrees.childAt_bind (na := { na with keys := ks, values := vs }) ha1 fun c hc => ?_
    refine Agrees.step (h' := h.set a { na with keys := ks, values := vs }) (v := k) (fun s => ?_) (Agrees.last fun k' c' _ hc' => ?_)
    · unfold keyAt
      rw [Eff.bind_run, node_run hp1]
      simp only [hk1]
      rfl
    subst hc'
    obtain ⟨n, hn, _⟩ := ((k1.1 a _ ha1).kids hl).get hc c' rfl
    exact ih k1.1 hs1 (List.getElem?_eq_some_iff.1 hn).1
  · refine Agrees.bind (merge_agrees ha hl hk fun c hc => hap.ne (by omega) hx (by omega) hc) fun h1 hm => ?_
    have k1 := merge_keeps ho ha hl hm
    obtain ⟨na1, ha1, e⟩ := k1.2 a na ha
    simp only
    rw [load_of ha1, Go.bind_ok]
    refine Agrees.childAt_bind ha1 fun c hc => Agrees.last fun k' c' _ hc' => ?_
    subst hc'
    obtain ⟨n, hn, _⟩ := ((k1.1 a _ ha1).kids (e.trans hl)).get hc c' rfl
    exact ih k1.1 (merge_sep ho hs ha hl hx hm) (List.getElem?_eq_some_iff.1 hn).1

theorem removeNode_agrees (hA : Answers cmp ord) (d : Nat) : ∀ {h : BStore κ ν} {a : Nat} {key : κ}, HeapOk P h → Sep h →
    a < h.length →
    Agrees (Raises cmp) (removeNode cmp d a key) h (BTree.removeNode ord d h a key) fun h' => ((), h') := by
  induction d with
  | zero => intro h a key _ _ _; exact Agrees.panic
  | succ d ih =>
    intro h a key ho hs hlt
    have ha : h[a]? = some h[a] := List.getElem?_eq_getElem hlt
    generalize h[a] = na at ha
    unfold removeNode BTree.removeNode BTree.findKey
    rw [load_of ha, Go.bind_ok]
    refine Agrees.node_bind ha (Agrees.bind (findKeyLoop_agrees hA _ _) fun i hi => ?_)
    simp only
    refine Agrees.bind (mid := fun b => (b, h)) (p := if i < na.n then do
        let k ← getAt na.keys i
        match k with
        | some k => .ok (decide (ord k key = .eq))
        | none => .ok false
      else .ok false) ?_ fun present hp => ?_
    · split
      · refine Agrees.keyAt_bind ha fun k _ => ?_
        cases k with
        | none => exact Agrees.pure rfl
        | some k => exact Agrees.call_bind hA (Agrees.pure rfl)
      · exact Agrees.pure rfl
    simp only
    by_cases hpr : present = true
    · rw [if_pos hpr, if_pos hpr]
      by_cases hl : na.leaf = true
      · rw [if_pos hl, if_pos hl]
        exact removeFromLeaf_agrees ha
      · rw [if_neg hl, if_neg hl]
        have hlt : i < na.n := by
          by_cases hlt : i < na.n
          · exact hlt
          · rw [if_neg hlt] at hp
            cases hp
            cases hpr
        exact removeFromNonLeaf_agrees ih ho hs ha (by simpa using hl) (by omega)
    rw [if_neg hpr, if_neg hpr]
    by_cases hl : na.leaf = true
    · rw [if_pos hl, if_pos hl]
      exact Agrees.pure rfl
    rw [if_neg hl, if_neg hl]
    simp only [Bool.not_eq_true] at hl
    have hle := (findKeyLoop_le _ (hs a na ha hl).nonneg hi).2
    refine Agrees.childN_bind ha fun n => ?_
    have hrest : ∀ h1, Keeps P h h1 → Sep h1 → Agrees (Raises cmp) (do
        let self ← node (some a)
        let c ← (if decide (i = na.n) && decide (i > self.n) then childAt a (i - 1) else childAt a i)
        let c ← Eff.lift (addr c)
        removeNode cmp d c key) h1 (do
        let self ← load h1 (some a)
        if decide (i = na.n) && decide (i > self.n) then do
          let c ← getAt self.childs (i - 1)
          let c ← addr c
          BTree.removeNode ord d h1 c key
        else do
          let c ← getAt self.childs i
          let c ← addr c
          BTree.removeNode ord d h1 c key) fun h' => ((), h') := by
      intro h1 k1 s1
      obtain ⟨na1, ha1, e⟩ := k1.2 a na ha
      rw [load_of ha1, Go.bind_ok]
      refine Agrees.node_bind ha1 ?_
      have hgo : ∀ j : Int, Agrees (Raises cmp) (do
          let c ← childAt a j
          let c ← Eff.lift (addr c)
          removeNode cmp d c key) h1 (do
          let c ← getAt na1.childs j
          let c ← addr c
          BTree.removeNode ord d h1 c key) fun h' => ((), h') := by
        intro j
        refine Agrees.childAt_bind ha1 fun c hc => Agrees.lift_bind fun c' hc' => ?_
        cases addr_inv hc'
        obtain ⟨n, hn, _⟩ := ((k1.1 a na1 ha1).kids (e.trans hl)).get hc c' rfl
        exact ih k1.1 s1 (List.getElem?_eq_some_iff.1 hn).1
      by_cases hfl : (decide (i = na.n) && decide (i > na1.n)) = true
      · rw [if_pos hfl, if_pos hfl]; exact hgo _
      · rw [if_neg hfl, if_neg hfl]; exact hgo _
    by_cases hm : n < na.minDeg
    · rw [if_pos hm, if_pos hm]
      exact Agrees.bind (fill_agrees ho hs ha hl hle) fun h1 hf =>
        hrest h1 (fill_keeps ho ha hl hf) (fill_sep ho hs ha hl hle hf)
    · rw [if_neg hm, if_neg hm, Go.bind_ok]
      exact hrest h (Keeps.rfl' ho) hs

/-! ### The methods of BTreeMap -/

/-- As `Agrees`, for methods on a map variable. -/
def AgreesM (E : Panic → Prop) (x : Eff (BMap × (BStore κ ν × σ)) α) (m : BMap) (h : BStore κ ν) (p : Go β)
    (out : β → BStore κ ν × BMap × α) : Prop :=
  ∀ s, (∀ b, p = .ok b → (∃ s', x (m, (h, s)) = (.ok (out b).2.2, ((out b).2.1, ((out b).1, s')))) ∨
      ∃ e w, x (m, (h, s)) = (.error e, w) ∧ E e) ∧
    ∀ e, p = .error e → ∃ e' w, x (m, (h, s)) = (.error e', w) ∧ (e' = e ∨ E e')

section
variable {E : Panic → Prop} {m : BMap} {out : β → BStore κ ν × BMap × α}

theorem AgreesM.pure {v : α} {b : β} (ho : out b = (h, m, v)) : AgreesM (σ := σ) E (pure v) m h (.ok b) out := by
  refine fun s => ⟨fun b' hb => .inl ?_, fun e he => by cases he⟩
  cases hb
  exact ⟨s, by rw [ho]; rfl⟩
theorem AgreesM.bind {x : Eff (BStore κ ν × σ) γ} {p : Go δ} {mid : δ → γ × BStore κ ν} {f : γ → Eff (BMap × (BStore κ ν × σ)) α}
    {q : δ → Go β} (hx : Agrees E x h p mid) (hf : ∀ d, p = .ok d → AgreesM E (f (mid d).1) m (mid d).2 (q d) out) :
    AgreesM E (inside x >>= f) m h (p >>= q) out := by
  intro s
  rw [Eff.bind_run]
  unfold inside call
  simp only
  cases p with
  | error e =>
    obtain ⟨e', w, hr, he⟩ := (hx s).2 e rfl
    rw [hr]
    exact ⟨fun b hb => (by cases hb), fun _ hq => ⟨e', _, rfl, by cases hq; exact he⟩⟩
  | ok d =>
    rcases (hx s).1 d rfl with ⟨s', hr⟩ | ⟨e', w, hr, he⟩
    · rw [hr]
      exact hf d rfl s'
    · rw [hr]
      exact ⟨fun b hb => .inr ⟨e', _, rfl, he⟩, fun _ _ => ⟨e', _, rfl, .inr he⟩⟩
theorem AgreesM.step {x : Eff (BStore κ ν × σ) γ} {v : γ} {h' : BStore κ ν} {f : γ → Eff (BMap × (BStore κ ν × σ)) α} {p : Go β}
    (hx : ∀ s, x (h, s) = (.ok v, (h', s))) (hf : AgreesM E (f v) m h' p out) : AgreesM E (inside x >>= f) m h p out := by
  intro s
  rw [Eff.bind_run]
  unfold inside call
  simp only [hx s]
  exact hf s
theorem AgreesM.get_bind {f : BMap → Eff (BMap × (BStore κ ν × σ)) α} {p : Go β} (hf : AgreesM E (f m) m h p out) :
    AgreesM E (Unwind.get >>= f) m h p out := hf
theorem AgreesM.put_bind {m' : BMap} {f : Unit → Eff (BMap × (BStore κ ν × σ)) α} {p : Go β} (hf : AgreesM E (f ()) m' h p out) :
    AgreesM E (Unwind.put m' >>= f) m h p out := hf
theorem AgreesM.lift_bind {g : Go γ} {f : γ → Eff (BMap × (BStore κ ν × σ)) α} {q : γ → Go β}
    (hf : ∀ v, g = .ok v → AgreesM E (f v) m h (q v) out) : AgreesM E (Eff.lift g >>= f) m h (g >>= q) out := by
  cases g with
  | error e => exact fun _ => ⟨fun _ hb => (by cases hb), fun _ he => ⟨e, _, rfl, .inl (by cases he; rfl)⟩⟩
  | ok v => exact hf v rfl
theorem AgreesM.childAt_bind {i : Int} {f : Option Nat → Eff (BMap × (BStore κ ν × σ)) α} {q : Option Nat → Go β}
    (ha : h[a]? = some na) (hf : ∀ c, getAt na.childs i = .ok c → AgreesM E (f c) m h (q c) out) :
    AgreesM E (inside (childAt a i) >>= f) m h (getAt na.childs i >>= q) out := by
  refine AgreesM.bind (mid := fun c => (c, h)) ?_ hf
  have hg : getAt na.childs i = getAt na.childs i >>= Except.ok := by cases getAt na.childs i <;> rfl
  rw [hg]
  exact Agrees.of_bind (Agrees.childAt_bind ha fun c _ => Agrees.pure rfl)
theorem AgreesM.keyAt_bind {i : Int} {f : Option κ → Eff (BMap × (BStore κ ν × σ)) α} {q : Option κ → Go β}
    (ha : h[a]? = some na) (hf : ∀ c, getAt na.keys i = .ok c → AgreesM E (f c) m h (q c) out) :
    AgreesM E (inside (keyAt a i) >>= f) m h (getAt na.keys i >>= q) out := by
  refine AgreesM.bind (mid := fun c => (c, h)) ?_ hf
  have hg : getAt na.keys i = getAt na.keys i >>= Except.ok := by cases getAt na.keys i <;> rfl
  rw [hg]
  exact Agrees.of_bind (Agrees.keyAt_bind ha fun c _ => Agrees.pure rfl)
theorem AgreesM.valueAt_bind {i : Int} {f : Option ν → Eff (BMap × (BStore κ ν × σ)) α} {q : Option ν → Go β}
    (ha : h[a]? = some na) (hf : ∀ c, getAt na.values i = .ok c → AgreesM E (f c) m h (q c) out) :
    AgreesM E (inside (valueAt a i) >>= f) m h (getAt na.values i >>= q) out := by
  refine AgreesM.bind (mid := fun c => (c, h)) ?_ hf
  have hg : getAt na.values i = getAt na.values i >>= Except.ok := by cases getAt na.values i <;> rfl
  rw [hg]
  exact Agrees.of_bind (Agrees.valueAt_bind ha fun c _ => Agrees.pure rfl)
theorem AgreesM.setKey_bind {i : Int} {c : Option κ} {f : Unit → Eff (BMap × (BStore κ ν × σ)) α} {q : List (Option κ) → Go β}
    (ha : h[a]? = some na)
    (hf : ∀ cs, setAt na.keys i c = .ok cs → AgreesM E (f ()) m (h.set a { na with keys := cs }) (q cs) out) :
    AgreesM E (inside (setKey a i c) >>= f) m h (setAt na.keys i c >>= q) out := by
  refine AgreesM.bind (mid := fun cs => ((), h.set a { na with keys := cs })) ?_ hf
  have hg : setAt na.keys i c = setAt na.keys i c >>= Except.ok := by cases setAt na.keys i c <;> rfl
  rw [hg]
  exact Agrees.of_bind (Agrees.setKey_bind ha fun c _ => Agrees.pure rfl)
theorem AgreesM.setValue_bind {i : Int} {c : Option ν} {f : Unit → Eff (BMap × (BStore κ ν × σ)) α} {q : List (Option ν) → Go β}
    (ha : h[a]? = some na)
    (hf : ∀ cs, setAt na.values i c = .ok cs → AgreesM E (f ()) m (h.set a { na with values := cs }) (q cs) out) :
    AgreesM E (inside (setValue a i c) >>= f) m h (setAt na.values i c >>= q) out := by
  refine AgreesM.bind (mid := fun cs => ((), h.set a { na with values := cs })) ?_ hf
  have hg : setAt na.values i c = setAt na.values i c >>= Except.ok := by cases setAt na.values i c <;> rfl
  rw [hg]
  exact Agrees.of_bind (Agrees.setValue_bind ha fun c _ => Agrees.pure rfl)
theorem AgreesM.setChild_bind {i : Int} {c : Option Nat} {f : Unit → Eff (BMap × (BStore κ ν × σ)) α} {q : List (Option Nat) → Go β}
    (ha : h[a]? = some na)
    (hf : ∀ cs, setAt na.childs i c = .ok cs → AgreesM E (f ()) m (h.set a { na with childs := cs }) (q cs) out) :
    AgreesM E (inside (setChild a i c) >>= f) m h (setAt na.childs i c >>= q) out := by
  refine AgreesM.bind (mid := fun cs => ((), h.set a { na with childs := cs })) ?_ hf
  have hg : setAt na.childs i c = setAt na.childs i c >>= Except.ok := by cases setAt na.childs i c <;> rfl
  rw [hg]
  exact Agrees.of_bind (Agrees.setChild_bind ha fun c _ => Agrees.pure rfl)
end

theorem insert_agrees (hA : Answers cmp ord) {m : BMap} {key : κ} {value : ν} (ho : HeapOk P h)
    (hr : ∀ r, m.root = some r → r < h.length) :
    AgreesM (Raises cmp) (insert cmp key value) m h (m.insert ord h key value) id := by
  obtain ⟨root, len⟩ := m
  unfold insert BMap.insert
  refine AgreesM.get_bind ?_
  cases root with
  | none =>
    simp only
    refine AgreesM.step (v := h.length) (h' := h ++ [blank true 0 1]) (fun _ => rfl) (AgreesM.put_bind ?_)
    rw [← setAt_cast]
    refine AgreesM.setKey_bind (na := blank true 0 1) (got_last _ _) fun ks _ => ?_
    rw [set_last, ← setAt_cast]
    refine AgreesM.setValue_bind (na := { (blank true 0 1 : BNode κ ν) with keys := ks }) (got_last _ _) fun vs _ => ?_
    rw [set_last]
    exact AgreesM.put_bind (AgreesM.pure rfl)
  | some root =>
    simp only
    have hlt := hr root rfl
    refine AgreesM.step (v := h) (h' := h) (fun _ => rfl) (AgreesM.bind (search_agrees hA _ _) fun r hs => ?_)
    cases r with
    | some ai =>
      obtain ⟨b, i⟩ := ai
      obtain ⟨node', k, hb, _, _⟩ := search_slot _ hs
      simp only
      rw [load_of hb, Go.bind_ok, ← getAt_cast]
      refine AgreesM.valueAt_bind hb fun old _ => ?_
      rw [← setAt_cast]
      exact AgreesM.setValue_bind hb fun vs _ => AgreesM.lift_bind fun o _ => AgreesM.pure rfl
    | none =>
      simp only
      have hn : h[root]? = some h[root] := List.getElem?_eq_getElem hlt
      generalize h[root] = rn at hn
      rw [load_of hn, Go.bind_ok]
      refine AgreesM.step (fun s => node_run hn s) ?_
      by_cases hf : rn.n = (capacity : Int)
      · rw [if_pos hf, if_pos hf]
        refine AgreesM.step (v := h.length) (h' := h ++ [blank false capacity 0]) (fun _ => rfl) ?_
        rw [← setAt_cast]
        refine AgreesM.setChild_bind (na := blank false capacity 0) (got_last _ _) fun cs hcs => ?_
        rw [set_last]
        have ha := got_last h { (blank false capacity 0 : BNode κ ν) with childs := cs }
        have hy := got_app (x := { (blank false capacity 0 : BNode κ ν) with childs := cs }) hn
        have hay : h.length ≠ root := by omega
        refine AgreesM.bind (splitChild_agrees ha hy hay) fun h1 hsp => ?_
        simp only
        obtain ⟨na1, ha1, _, hl1⟩ := splitChild_kept ha hy hay hsp
        have hleaf : rn.leaf = true := by
          by_cases hl : rn.leaf = true
          · exact hl
          · exact (splitChild_internal ha rfl hy (by simpa using hl) (ho root rn hn).clen hsp).elim
        have hcs' : cs = (blank false capacity 0 : BNode κ ν).childs.set 0 (some root) := (setAt_inv hcs).2.2
        have k1 := ho.push (node := { (blank false capacity 0 : BNode κ ν) with childs := cs })
          ⟨Paired.blank, by rw [hcs']; simp [blank, capacity], fun _ => by
            rw [hcs']
            intro j d hd
            by_cases hj : 0 = j
            · subst hj
              simp [blank, capacity] at hd
              subst hd
              exact ⟨rn, hn, hleaf⟩
            · rw [List.getElem?_set_ne hj] at hd
              have := List.eq_of_mem_replicate (List.mem_of_getElem? hd)
              cases this⟩
        have k2 := splitChild_keeps k1.1 ha (fun _ => .inl rfl) hsp
        rw [load_of ha1, Go.bind_ok, ← getAt_cast]
        refine AgreesM.keyAt_bind ha1 fun k _ => AgreesM.lift_bind fun k' _ => ?_
        have hcall : Agrees (Raises cmp) (call (cmp k' key)) h1 (.ok (ord k' key)) fun o => (o, h1) :=
          Agrees.of_bind (Agrees.call_bind hA (Agrees.pure rfl))
        refine AgreesM.bind hcall (q := fun o => ?_) fun o ho' => ?_
        rotate_left
        · cases ho'
          simp only
          have hi : (if ord k' key = Ordering.lt then (1 : Int) else 0) = ((if ord k' key = .lt then 1 else 0 : Nat) : Int) := by
            split <;> rfl
          rw [hi, ← getAt_cast]
          refine AgreesM.childAt_bind ha1 fun c hc => AgreesM.lift_bind fun c' hc' => ?_
          cases addr_inv hc'
          obtain ⟨n, hn', _⟩ := ((k2.1 _ na1 ha1).kids hl1).get hc c' rfl
          refine AgreesM.step (v := h1) (h' := h1) (fun _ => rfl) ?_
          exact AgreesM.bind (insertNonFull_agrees hA _ k2.1 (List.getElem?_eq_some_iff.1 hn').1) fun h2 _ =>
            AgreesM.put_bind (AgreesM.pure rfl)
      · rw [if_neg hf, if_neg hf]
        exact AgreesM.bind (insertNonFull_agrees hA _ ho hlt) fun h2 _ => AgreesM.put_bind (AgreesM.pure rfl)

theorem remove_agrees (hA : Answers cmp ord) {m : BMap} {key : κ} (ho : HeapOk P h) (hs : Sep h)
    (hr : ∀ r, m.root = some r → r < h.length) :
    AgreesM (Raises cmp) (remove cmp key) m h (m.remove ord h key) id := by
  obtain ⟨root, len⟩ := m
  unfold remove BMap.remove
  refine AgreesM.get_bind ?_
  cases root with
  | none => exact AgreesM.pure rfl
  | some root =>
    simp only
    have hlt := hr root rfl
    refine AgreesM.step (v := h) (h' := h) (fun _ => rfl) (AgreesM.bind (search_agrees hA _ _) fun r hsr => ?_)
    refine AgreesM.bind (removeNode_agrees hA _ ho hs hlt) fun h1 hrm => ?_
    have k1 := removeNode_keeps _ ho hrm
    simp only
    obtain ⟨rn, hn, _⟩ := k1.2 root _ (List.getElem?_eq_getElem hlt)
    rw [load_of hn, Go.bind_ok]
    refine AgreesM.step (fun s => node_run hn s) ?_
    have hrest : ∀ nr, AgreesM (σ := σ) (Raises cmp) (match r with
        | none => Pure.pure Opt.none
        | some (a, i) => do
          let self ← Unwind.get
          put ⟨self.root, usizeSub self.len 1⟩
          let v ← inside (valueAt a i)
          let v ← Eff.lift (deref v)
          Pure.pure (Opt.some v)) ⟨nr, len⟩ h1 (match r with
        | none => .ok (h1, ⟨nr, len⟩, Opt.none)
        | some (a, i) => do
          let node ← load h1 (some a)
          let v ← index node.values i
          let v ← deref v
          .ok (h1, ⟨nr, usizeSub len 1⟩, Opt.some v)) id := by
      intro nr
      cases r with
      | none => exact AgreesM.pure rfl
      | some ai =>
        obtain ⟨b, i⟩ := ai
        obtain ⟨node', k, hb, _, _⟩ := search_slot _ hsr
        obtain ⟨nb, hnb, _⟩ := k1.2 b node' hb
        simp only
        rw [load_of hnb, Go.bind_ok, ← getAt_cast]
        exact AgreesM.get_bind (AgreesM.put_bind (AgreesM.valueAt_bind hnb fun v _ => AgreesM.lift_bind fun w _ => AgreesM.pure rfl))
    by_cases h0 : rn.n = 0
    · rw [if_pos h0, if_pos h0]
      by_cases hl : rn.leaf = true
      · rw [if_pos hl, if_pos hl, Eff.pure_bind, Go.bind_ok]
        exact AgreesM.put_bind (hrest _)
      · rw [if_neg hl, if_neg hl, ← getAt_cast]
        exact AgreesM.childAt_bind hn fun c _ => AgreesM.put_bind (hrest _)
    · rw [if_neg h0, if_neg h0, Go.bind_ok]
      exact hrest _

end Gost.Steps
