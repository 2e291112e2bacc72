import Verif.Lemmas.BTreeSteps
import Verif.Props.BTreeAny
/-
Property C148: BTreeMaps after calls that panicked and were recovered.
-/
namespace Gost
open Spec BTree Unwind
open Steps (OkAt Inner Inv Grow Safe Any)
variable {κ ν σ β γ : Type}

/-! ### Programs that recover -/

/-- A call on the map variable `x`, the assignment `x = y`, or anything else the program does. -/
inductive StepOp (κ ν σ : Type) where
  | call (x : Nat) (o : HOp κ ν) | assign (x y : Nat) | other (f : σ → σ)

/-- The map variables, the nodes and the rest of the program. -/
abbrev SState (κ ν σ : Type) := (Nat → BMap) × (BStore κ ν × σ)

/-- A method with pointer receiver on the variable `x`: what was assigned to it stays when the call panics. -/
def StepOp.on (x : Nat) (m : Eff (BMap × (BStore κ ν × σ)) β) : Eff (SState κ ν σ) β := fun s =>
  let r := m (s.1 x, s.2)
  (r.1, (fun y => if y = x then r.2.1 else s.1 y, r.2.2))

/-- One step of a program. -/
def StepOp.step (cmp : κ → κ → Eff σ Ordering) : StepOp κ ν σ → Eff (SState κ ν σ) (Obs ν)
  | .call x (.insert k v) => do
    let r ← on x (Steps.insert cmp k v)
    pure (.opt r.value)
  | .call x (.remove k) => do
    let r ← on x (Steps.remove cmp k)
    pure (.opt r.value)
  | .call x (.get k) => do
    let vars ← Unwind.get
    let r ← Unwind.call (bGet cmp (vars x) k)
    pure (.opt r.value)
  | .call x (.containsKey k) => do
    let vars ← Unwind.get
    let r ← Unwind.call (bContainsKey cmp (vars x) k)
    pure (.bool r)
  | .call x .len => do
    let vars ← Unwind.get
    pure (.nat (vars x).len)
  | .call x .isEmpty => do
    let vars ← Unwind.get
    pure (.bool ((vars x).len == 0))
  | .call x .clear => do
    on x (put BMap.new)
    pure .unit
  | .assign x y => do
    let vars ← Unwind.get
    put fun z => if z = x then vars y else vars z
    pure .unit
  | .other f => fun s => (.ok .unit, (s.1, (s.2.1, f s.2.2)))

/-- The program goes on after every step, recovering its panic if there is one. -/
def StepOp.run (cmp : κ → κ → Eff σ Ordering) : List (StepOp κ ν σ) → SState κ ν σ →
    List (Except Panic (Obs ν)) × SState κ ν σ
  | [], s => ([], s)
  | o :: os, s =>
    let r := o.step cmp s
    let rest := run cmp os r.2
    (r.1 :: rest.1, rest.2)

/-- The pairs given to Insert on any variable, also when it panicked. -/
def Spec.gave (os : List (StepOp κ ν σ)) : List (κ × ν) :=
  os.filterMap fun
    | .call _ (.insert k v) => some (k, v)
    | _ => none

/-- `st` is a state after the steps `os`, each of which returned or panicked. -/
def Spec.Recovered (cmp : κ → κ → Eff σ Ordering) (os : List (StepOp κ ν σ)) (st : SState κ ν σ) : Prop :=
  ∃ s0, (StepOp.run cmp os (fun _ => BMap.new, ([], s0))).2 = st

/-- Cmp can answer that the keys are equal. -/
def Spec.Says (cmp : κ → κ → Eff σ Ordering) (a b : κ) : Prop := ∃ s s', cmp a b s = (.ok .eq, s')

/-- A key that was given, with a value that was given for it or for a key that Cmp called equal. -/
def Spec.Got (cmp : κ → κ → Eff σ Ordering) (l : List (κ × ν)) (k : κ) (v : ν) : Prop :=
  (∃ v', (k, v') ∈ l) ∧ ∃ k', (k', v) ∈ l ∧ (k' = k ∨ Says cmp k' k)

theorem Spec.Got.mono {cmp : κ → κ → Eff σ Ordering} {l l' : List (κ × ν)} (h : ∀ p ∈ l, p ∈ l') {k : κ} {v : ν}
    (he : Got cmp l k v) : Got cmp l' k v := by
  obtain ⟨⟨v', h1⟩, k', h2, h3⟩ := he
  exact ⟨⟨v', h _ h1⟩, k', h _ h2, h3⟩

theorem BTree.NodeOk.imp {P R : κ → ν → Prop} {h : BStore κ ν} {n : BNode κ ν} (hn : NodeOk P h n)
    (h0 : ∀ k v, P k v → R k v) : NodeOk R h n := 
  ⟨⟨hn.slots.klen, hn.slots.vlen, fun i k v hk hv => (hn.slots.slot i k v hk hv).imp h0⟩, hn.clen, hn.kids⟩

/-! ### Reading -/

section
variable {P : κ → ν → Prop} {cmp : κ → κ → Eff σ Ordering} {h : BStore κ ν}

/-- Reads the nodes only; its panics are those of Cmp. -/
abbrev Reads (cmp : κ → κ → Eff σ Ordering) (h : BStore κ ν) (x : Eff (BStore κ ν × σ) β) (Q : β → Prop) : Prop :=
  Triple (Raises cmp) (fun w => w = h) x (fun v w => w = h ∧ Q v) (fun w => w = h)

theorem Reads.pure {b : β} {Q : β → Prop} (hb : Q b) : Reads cmp h (pure b) Q := Triple.pure fun _ hv => ⟨hv, hb⟩
theorem Reads.bind {x : Eff (BStore κ ν × σ) γ} {M : γ → Prop} {f : γ → Eff (BStore κ ν × σ) β} {Q : β → Prop}
    (hx : Reads cmp h x M) (hf : ∀ v, M v → Reads cmp h (f v) Q) : Reads cmp h (x >>= f) Q :=
  Triple.bind hx fun v w s hw => hf v hw.2 w s hw.1
theorem Reads.call_bind {a b : κ} {f : Ordering → Eff (BStore κ ν × σ) β} {Q : β → Prop}
    (hf : ∀ o s s', cmp a b s = (.ok o, s') → Reads cmp h (f o) Q) : Reads cmp h (call (cmp a b) >>= f) Q := by
  intro v s hv
  rw [Eff.bind_run]
  unfold call
  rcases hr : cmp a b s with ⟨e | o, s'⟩
  · exact ⟨⟨a, b, s, by rw [hr]⟩, hv⟩
  · exact hf o s s' hr v s' hv
theorem Reads.get_bind {f : BStore κ ν → Eff (BStore κ ν × σ) β} {Q : β → Prop} (hf : Reads cmp h (f h) Q) :
    Reads cmp h (Unwind.get >>= f) Q := by
  intro v s hv
  subst hv
  exact hf v s rfl

theorem searchIdx_reads {key : κ} (ks : List (Option κ)) :
    Reads cmp h (Unwind.searchIdx cmp key ks) fun i => i ≤ ks.length := by
  induction ks with
  | nil => exact Reads.pure (by simp)
  | cons k ks ih =>
    cases k with
    | none => exact Reads.pure (by simp)
    | some k =>
      unfold Unwind.searchIdx
      refine Reads.call_bind fun o _ _ _ => ?_
      split
      · exact Reads.bind ih fun i hi => Reads.pure (by simpa using hi)
      · exact Reads.pure (by simp)

/-- What a search finds. -/
def Finds (P : κ → ν → Prop) (cmp : κ → κ → Eff σ Ordering) (h : BStore κ ν) (key : κ) : Option (Nat × Nat) → Prop
  | none => True
  | some (b, i) => ∃ node k, h[b]? = some node ∧ NodeOk P h node ∧ node.keys[i]? = some (some k) ∧ Says cmp key k

theorem search_reads (hi : Inv P h) {key : κ} (d : Nat) : ∀ {a : Nat}, OkAt P h a → (Leafy h a ∨ 1 ≤ d) →
    Reads cmp h (Unwind.search cmp key (d + 1) a) (Finds P cmp h key) := by
  induction d with
  | zero =>
    intro a ho hl
    have hl : Leafy h a := hl.resolve_right (by omega)
    obtain ⟨self, hn, hk⟩ := ho
    have hlf := Steps.leafy_leaf hl hn
    unfold Unwind.search
    refine Reads.get_bind ?_
    rw [load_of hn, Eff.lift_ok, Eff.pure_bind]
    refine Reads.bind (searchIdx_reads _) fun i _ => Reads.bind
      (M := fun f => f = true → Finds P cmp h key (some (a, i))) ?_ fun f hf => ?_
    · split
      · next k hkk =>
        refine Reads.call_bind fun o s s' hc => Reads.pure fun ho => ?_
        simp only [decide_eq_true_eq] at ho
        subst ho
        exact ⟨self, k, hn, hk, hkk, s, s', hc⟩
      · exact Reads.pure (by simp)
    · by_cases hf' : f = true
      · rw [if_pos hf']; exact Reads.pure (hf hf')
      · rw [if_neg hf', if_pos hlf]; exact Reads.pure trivial
  | succ d ih =>
    intro a ho _
    obtain ⟨self, hn, hk⟩ := ho
    unfold Unwind.search
    refine Reads.get_bind ?_
    rw [load_of hn, Eff.lift_ok, Eff.pure_bind]
    refine Reads.bind (searchIdx_reads _) fun i hle => Reads.bind
      (M := fun f => f = true → Finds P cmp h key (some (a, i))) ?_ fun f hf => ?_
    · split
      · next k hkk =>
        refine Reads.call_bind fun o s s' hc => Reads.pure fun ho => ?_
        simp only [decide_eq_true_eq] at ho
        subst ho
        exact ⟨self, k, hn, hk, hkk, s, s', hc⟩
      · exact Reads.pure (by simp)
    · by_cases hf' : f = true
      · rw [if_pos hf']; exact Reads.pure (hf hf')
      rw [if_neg hf']
      by_cases hl : self.leaf = true
      · rw [if_pos hl]; exact Reads.pure trivial
      rw [if_neg hl]
      rw [hk.slots.klen] at hle
      have hlt : i < self.childs.length := by rw [hk.clen]; omega
      rw [getAt_lt hlt, Eff.lift_ok, Eff.pure_bind]
      cases hc : self.childs[i] with
      | none => exact Reads.pure trivial
      | some c =>
        have hcl : Leafy h c := hk.kids (by simpa using hl) i c (by rw [List.getElem?_eq_getElem hlt, hc])
        exact ih (hi.leafy hcl) (.inl hcl)

/-- Roots are in shape. -/
def RootOk (P : κ → ν → Prop) (h : BStore κ ν) (m : BMap) : Prop := ∀ r, m.root = some r → OkAt P h r

theorem RootOk.grow {h' : BStore κ ν} {m : BMap} (hr : RootOk P h m) (g : Grow P h h') : RootOk P h' m :=
  fun r hm => (hr r hm).grow g

theorem search_root (hi : Inv P h) {key : κ} {r : Nat} (hr : OkAt P h r) :
    Reads cmp h (Unwind.search cmp key (h.length + 1) r) (Finds P cmp h key) := by
  refine search_reads hi _ hr (.inr ?_)
  obtain ⟨n, hn, _⟩ := hr
  have := (List.getElem?_eq_some_iff.1 hn).1
  omega

/-- A slot that was found. -/
theorem Finds.value {key : κ} {b i : Nat} (hf : Finds P cmp h key (some (b, i))) :
    ∃ node k v, h[b]? = some node ∧ NodeOk P h node ∧ node.keys[i]? = some (some k) ∧
      index node.values i = .ok (some v) ∧ P k v ∧ Says cmp key k := by
  obtain ⟨node, k, hb, hn, hk, hs⟩ := hf
  have hi := (List.getElem?_eq_some_iff.1 hk).1
  rw [hn.slots.klen, ← hn.slots.vlen] at hi
  have hv : node.values[i]? = some node.values[i] := List.getElem?_eq_getElem hi
  obtain ⟨v, hv', hP⟩ := slot_value (hn.slots.slot i _ _ hk hv)
  rw [hv'] at hv
  exact ⟨node, k, v, hb, hn, hk, by rw [index, hv], hP, hs⟩

theorem bGet_reads (hi : Inv P h) {m : BMap} (hr : RootOk P h m) (key : κ) :
    Reads cmp h (bGet cmp m key) fun r => ∀ v, r.value = some v → ∃ k, P k v ∧ Says cmp key k := by
  unfold bGet
  cases hm : m.root with
  | none => exact Reads.pure fun v hv => by cases hv
  | some r =>
    refine Reads.get_bind (Reads.bind (search_root hi (hr r hm)) fun res hf => ?_)
    cases res with
    | none => exact Reads.pure fun v hv => by cases hv
    | some ai =>
      obtain ⟨b, i⟩ := ai
      obtain ⟨node, k, v, hb, _, _, hv, hP, hs⟩ := hf.value
      simp only [load_of hb, Eff.lift_ok, Eff.pure_bind, hv, deref]
      refine Reads.pure fun w hw => ?_
      cases hw
      exact ⟨k, hP, hs⟩

theorem bContainsKey_reads (hi : Inv P h) {m : BMap} (hr : RootOk P h m) (key : κ) :
    Reads cmp h (bContainsKey cmp m key) fun r => r = true → ∃ k v, P k v ∧ Says cmp key k := by
  unfold bContainsKey
  cases hm : m.root with
  | none => exact Reads.pure fun hv => by cases hv
  | some r =>
    refine Reads.get_bind (Reads.bind (search_root hi (hr r hm)) fun res hf => Reads.pure fun hs => ?_)
    cases res with
    | none => cases hs
    | some ai =>
      obtain ⟨b, i⟩ := ai
      obtain ⟨_, k, v, _, _, _, _, hP, hs⟩ := hf.value
      exact ⟨k, v, hP, hs⟩

theorem iters_root (hi : Inv P h) {m : BMap} (hr : RootOk P h m) (g : Growth) :
    (∃ w, m.intoIter g h = .ok ⟨w, 0⟩ ∧ ∀ p ∈ w.data, P p.key p.value) ∧
    (∃ w, m.keys g h = .ok ⟨w, 0⟩ ∧ ∀ k ∈ w.data, ∃ v, P k v) ∧
    (∃ w, m.values g h = .ok ⟨w, 0⟩ ∧ ∀ v ∈ w.data, ∃ k, P k v) := by
  obtain ⟨root, len⟩ := m
  unfold BMap.intoIter BMap.keys BMap.values
  cases root with
  | none => exact ⟨⟨_, rfl, no_data⟩, ⟨_, rfl, no_data⟩, ⟨_, rfl, no_data⟩⟩
  | some root =>
    obtain ⟨n, hn, hk⟩ := hr root rfl
    obtain ⟨hlt, hnn⟩ := List.getElem?_eq_some_iff.1 hn
    obtain ⟨d, hd⟩ : ∃ d, h.length + 1 = d + 2 := ⟨h.length - 1, by omega⟩
    obtain ⟨⟨w1, e1, q1⟩, ⟨w2, e2, q2⟩, ⟨w3, e3, q3⟩⟩ := vecs_root g d hlt (by rw [hnn]; exact hk) hi
    simp only [hd, e1, e2, e3, Go.bind_ok]
    exact ⟨⟨w1, rfl, q1⟩, ⟨w2, rfl, q2⟩, ⟨w3, rfl, q3⟩⟩

/-! ### Insert and Remove -/

/-- As `Safe`, with the map variable. -/
def SafeM (P : κ → ν → Prop) (x : Eff (BMap × (BStore κ ν × σ)) β) (Q : β → Prop) (m : BMap) (h : BStore κ ν) : Prop :=
  Inv P h → RootOk P h m → ∀ s, (Inv P (x (m, (h, s))).2.2.1 ∧ Grow P h (x (m, (h, s))).2.2.1 ∧
    RootOk P (x (m, (h, s))).2.2.1 (x (m, (h, s))).2.1) ∧ ∀ v, (x (m, (h, s))).1 = .ok v → Q v

variable {m : BMap} {Q : β → Prop}

theorem SafeM.pure {b : β} (hb : Q b) : SafeM (σ := σ) P (pure b) Q m h :=
  fun hi hr _ => ⟨⟨hi, Grow.rfl' h, hr⟩, fun v hv => by cases hv; exact hb⟩
theorem SafeM.panic {e : Panic} : SafeM (σ := σ) P (Eff.panic e) Q m h :=
  fun hi hr _ => ⟨⟨hi, Grow.rfl' h, hr⟩, fun v hv => by cases hv⟩
theorem SafeM.lift_bind {x : Go γ} {f : γ → Eff (BMap × (BStore κ ν × σ)) β} (hf : ∀ v, x = .ok v → SafeM P (f v) Q m h) :
    SafeM P (Eff.lift x >>= f) Q m h := by
  cases x with
  | error e => exact SafeM.panic
  | ok v => exact hf v rfl
theorem SafeM.get_bind {f : BMap → Eff (BMap × (BStore κ ν × σ)) β} (hf : SafeM P (f m) Q m h) :
    SafeM P (Unwind.get >>= f) Q m h := hf
theorem SafeM.put_bind {m' : BMap} {f : Unit → Eff (BMap × (BStore κ ν × σ)) β} (hm : RootOk P h m')
    (hf : SafeM P (f ()) Q m' h) : SafeM P (put m' >>= f) Q m h := fun hi _ s => hf hi hm s
theorem SafeM.inside_bind {x : Eff (BStore κ ν × σ) γ} {M : γ → BStore κ ν → Prop}
    {f : γ → Eff (BMap × (BStore κ ν × σ)) β} (hx : Safe P x M h)
    (hf : ∀ v h', Grow P h h' → M v h' → SafeM P (f v) Q m h') : SafeM P (Steps.inside x >>= f) Q m h := by
  intro hi hr s
  have h1 := hx hi s
  rw [Eff.bind_run]
  unfold Steps.inside call
  rcases hr' : x (h, s) with ⟨e | v, h', s'⟩
  · rw [hr'] at h1
    exact ⟨⟨h1.1.1, h1.1.2, hr.grow h1.1.2⟩, fun v hv => by cases hv⟩
  · rw [hr'] at h1
    have h2 := hf v h' h1.1.2 (h1.2 v rfl) h1.1.1 (hr.grow h1.1.2) s'
    exact ⟨⟨h2.1.1, h1.1.2.trans h2.1.2.1, h2.1.2.2⟩, h2.2⟩
theorem SafeM.inv {x : Eff (BMap × (BStore κ ν × σ)) β} (hx : Inv P h → RootOk P h m → SafeM P x Q m h) :
    SafeM P x Q m h := fun hi hr => hx hi hr hi hr

theorem Safe.get : Safe P (Unwind.get : Eff (BStore κ ν × σ) _) (fun v h' => v = h ∧ h' = h) h :=
  fun hi _ => ⟨⟨hi, Grow.rfl' h⟩, fun v hv => by cases hv; exact ⟨rfl, rfl⟩⟩
theorem Safe.of_bind {x : Eff (BStore κ ν × σ) β} {R : β → BStore κ ν → Prop} (hx : Safe P (x >>= Pure.pure) R h) : Safe P x R h := by
  rwa [Eff.bind_pure] at hx
/-- A search on the way. -/
theorem Reads.safe {x : Eff (BStore κ ν × σ) β} {M : β → Prop} (hx : Reads cmp h x M) :
    Safe P x (fun v h' => h' = h ∧ M v) h := by
  intro hi s
  have := hx h s rfl
  rcases hr : x (h, s) with ⟨e | v, h', s'⟩
  · rw [hr] at this
    obtain ⟨_, rfl⟩ := this
    exact ⟨⟨hi, Grow.rfl' _⟩, fun v hv => by cases hv⟩
  · rw [hr] at this
    obtain ⟨h1, h2⟩ := this
    simp only at h1
    subst h1
    exact ⟨⟨hi, Grow.rfl' _⟩, fun v hv => by cases hv; exact ⟨rfl, h2⟩⟩

/-- The nodes that exist, and one more that need not be in shape when it is internal. -/
theorem newRoot_run {f : Nat → Eff (BMap × (BStore κ ν × σ)) β} (root : Nat) :
    SafeM P (f h.length) Q m (h ++ [{ (blank false capacity 0 : BNode κ ν) with
      childs := (List.replicate 12 none).set 0 (some root) }]) →
    SafeM P (do
      let a ← Steps.inside (Steps.alloc (blank false capacity 0))
      Steps.inside (Steps.setChild a 0 (some root))
      f a) Q m h := by
  intro hf hi hr s
  have hg := hi.push (node := { (blank false capacity 0 : BNode κ ν) with
      childs := (List.replicate 12 none).set 0 (some root) }) (fun hl => by cases hl)
  have h1 := hf hg.1 (hr.grow hg.2) s
  have e : (do
      let a ← Steps.inside (Steps.alloc (blank false capacity 0))
      Steps.inside (Steps.setChild a 0 (some root))
      f a : Eff (BMap × (BStore κ ν × σ)) β) (m, (h, s)) =
      f h.length (m, (h ++ [{ (blank false capacity 0 : BNode κ ν) with
        childs := (List.replicate 12 none).set 0 (some root) }], s)) := by
    have e1 : (h ++ [(blank false capacity 0 : BNode κ ν)])[h.length]? = some (blank false capacity 0) := by simp
    have e2 : setAt (blank false capacity 0 : BNode κ ν).childs 0 (some root) =
        .ok ((List.replicate 12 none).set 0 (some root)) := rfl
    simp only [Eff.bind_run, Steps.inside, call, Steps.alloc, Unwind.get, put, Steps.setChild, Steps.node, Steps.update,
      Eff.lift_run, Eff.pure_run, load_of e1, e2]
    simp
  rw [e]
  exact ⟨⟨h1.1.1, hg.2.trans h1.1.2.1, h1.1.2.2⟩, h1.2⟩

/-- Insert, whether it returns or panics. -/
theorem insert_safe {P₀ : κ → ν → Prop} (hi0 : Inv P₀ h) (hr0 : RootOk P₀ h m) (h0 : ∀ k v, P₀ k v → P k v) {key : κ}
    {value : ν} (hP : P key value) (hO : ∀ k v, P k v → Says cmp key k → P k value) :
    SafeM P (Steps.insert cmp key value) (fun r => ∀ v, r.value = some v → ∃ k, P₀ k v ∧ Says cmp key k) m h := by
  have hnone : ∀ v, (Opt.none : Opt ν).value = some v → ∃ k, P₀ k v ∧ Says cmp key k := fun v hv => by cases hv
  unfold Steps.insert
  refine SafeM.inv fun hi hr => SafeM.get_bind ?_
  cases hm : m.root with
  | none =>
    simp only
    refine SafeM.inside_bind (Steps.alloc_safe (Steps.blank_ok _ _ _)) fun a h1 g1 ha => ?_
    obtain ⟨_, n, hn, _, hk⟩ := ha
    refine SafeM.put_bind (fun r hr => by cases hr; exact ⟨n, hn, hk⟩) ?_
    have hrest : ∀ h2, Grow P h1 h2 → SafeM (σ := σ) P (do put ⟨some a, 1⟩; pure Opt.none)
        (fun r => ∀ v, r.value = some v → ∃ k, P₀ k v ∧ Says cmp key k) ⟨some a, m.len⟩ h2 := by
      intro h2 g2
      exact SafeM.put_bind (fun r hr => by cases hr; exact OkAt.grow ⟨n, hn, hk⟩ g2) (SafeM.pure hnone)
    have hs : Safe (σ := σ) P (do Steps.setKey a 0 (some key); Steps.setValue a 0 (some value)) Any h1 := by
      refine Safe.of_bind ?_
      rw [Eff.bind_assoc]
      exact Steps.setSlot_safe ⟨n, hn, hk⟩ hP fun _ _ => Safe.pure trivial
    have := SafeM.inside_bind (m := ⟨some a, m.len⟩) hs fun _ h2 g2 _ => hrest h2 g2
    have e : ∀ (f : Unit → Eff (BMap × (BStore κ ν × σ)) (Opt ν)),
        (Steps.inside (do Steps.setKey a 0 (some key); Steps.setValue a 0 (some value)) >>= f) =
        (do
          Steps.inside (Steps.setKey a 0 (some key))
          Steps.inside (Steps.setValue a 0 (some value))
          f ()) := by
      intro f
      funext s
      simp only [Eff.bind_run, Steps.inside, call]
      rcases Steps.setKey a 0 (some key) s.2 with ⟨_ | _, _⟩ <;> rfl
    rw [e] at this
    exact this
  | some root =>
    simp only
    have hro := hr root hm
    refine SafeM.inside_bind Safe.get fun v h1 _ e => ?_
    obtain ⟨rfl, rfl⟩ := e
    refine SafeM.inside_bind (Reads.safe (search_root hi0 (hr0 root hm))) fun res h1 _ e => ?_
    obtain ⟨rfl, hf⟩ := e
    cases res with
    | some ai =>
      obtain ⟨b, i⟩ := ai
      obtain ⟨node, k, v, hb, hn0, hk, hv, hPk, hs⟩ := hf.value
      have hn := hn0.imp h0
      simp only
      refine SafeM.inside_bind (M := fun w h' => h' = h1 ∧ w = some v) ?_ fun w h2 _ e => ?_
      · refine Safe.of_bind (Safe.valueAt_bind fun n' w hn' hw => Safe.pure ⟨rfl, ?_⟩)
        rw [hb] at hn'; cases hn'
        have h3 := (getAt_slot hw).2
        have h4 := index_inv hv
        simp only [Int.toNat_natCast] at h3
        rw [h3] at h4
        exact Option.some.inj h4
      obtain ⟨rfl, rfl⟩ := e
      refine SafeM.inside_bind (M := Any) ?_ fun _ h3 g3 _ => ?_
      · refine Safe.node_bind fun b' n' hb' hn' => Safe.lift_bind fun vs hvs => Steps.update_safe fun n2 hn2 => ?_
        cases hb'
        rw [hb] at hn' hn2; cases hn'; cases hn2
        refine ⟨rfl, ?_, hn.clen, hn.kids⟩
        have hkeep : node.keys.set i (some k) = node.keys := by
          have := List.getElem?_eq_some_iff.1 hk
          rw [← this.2]; simp
        have hp := hn.slots.set i (k := some k) (v := some value) (hO k v (h0 k v hPk) hs)
        obtain ⟨_, _, rfl⟩ := setAt_inv hvs
        rw [hkeep] at hp
        simpa using hp
      · refine SafeM.lift_bind fun o ho => SafeM.pure fun w hw => ?_
        cases ho
        cases hw
        exact ⟨k, hPk, hs⟩
    | none =>
      simp only
      refine SafeM.inside_bind (M := fun n h' => h' = h1 ∧ h1[root]? = some n) ?_ fun rn h2 _ e => ?_
      · exact Safe.of_bind (Safe.node_bind fun b n hb hn => Safe.pure ⟨rfl, by cases hb; exact hn⟩)
      obtain ⟨rfl, hrn⟩ := e
      have hrk : NodeOk P h2 rn := by
        obtain ⟨n, hn, hk⟩ := hro
        rw [hrn] at hn; cases hn; exact hk
      by_cases hfull : rn.n = (capacity : Int)
      · rw [if_pos hfull]
        refine newRoot_run root ?_
        refine SafeM.inv fun hi3 hr3 => ?_
        have ha : (h2 ++ [{ (blank false capacity 0 : BNode κ ν) with
          childs := (List.replicate 12 none).set 0 (some root) }])[h2.length]? =
          some { (blank false capacity 0 : BNode κ ν) with childs := (List.replicate 12 none).set 0 (some root) } := by simp
        have g3 : Grow P h2 (h2 ++ [{ (blank false capacity 0 : BNode κ ν) with
          childs := (List.replicate 12 none).set 0 (some root) }]) := (hi.push fun hl => by cases hl).2
        obtain ⟨rn', hrn', hl', hk'⟩ := g3 root rn hrn
        by_cases hl : rn.leaf = true
        · have hrl : Leafy (h2 ++ [{ (blank false capacity 0 : BNode κ ν) with
              childs := (List.replicate 12 none).set 0 (some root) }]) root := ⟨rn', hrn', hl'.trans hl⟩
          have hin : Inner P (h2 ++ [{ (blank false capacity 0 : BNode κ ν) with
              childs := (List.replicate 12 none).set 0 (some root) }]) h2.length := by
            refine ⟨_, ha, rfl, Paired.blank, by simp, fun _ j c hc => ?_⟩
            by_cases hj : 0 = j
            · subst hj
              simp at hc
              subst hc
              exact hrl
            · rw [List.getElem?_set_ne hj] at hc
              have := List.eq_of_mem_replicate (List.mem_of_getElem? hc)
              cases this
          refine SafeM.inside_bind (Steps.splitChild_safe hin hrl) fun _ h4 g4 _ => ?_
          refine SafeM.inside_bind (M := fun _ h' => h' = h4) ?_ fun k h5 _ e => ?_
          · exact Safe.of_bind (Safe.keyAt_bind fun k => Safe.pure rfl)
          subst e
          refine SafeM.lift_bind fun k' _ => SafeM.inside_bind (M := fun _ h' => h' = h5) ?_ fun o h6 _ e => ?_
          · exact Safe.of_bind (Safe.call_bind fun o _ _ _ => Safe.pure rfl)
          subst e
          refine SafeM.inside_bind (M := fun c h' => h' = h6 ∧ ∀ b, c = some b → Leafy h6 b) ?_ fun c h7 _ e => ?_
          · refine Safe.of_bind (Safe.childAt_bind fun n c hn hc => Safe.pure ⟨rfl, ?_⟩)
            rintro b rfl
            exact Steps.kid_leafy (hin.grow g4) hn hc
          obtain ⟨rfl, hcl⟩ := e
          refine SafeM.lift_bind fun b hb => SafeM.inside_bind Safe.get fun v h8 _ e => ?_
          obtain ⟨rfl, rfl⟩ := e
          refine SafeM.inside_bind (Safe.inv fun hi => Steps.insertNonFull_safe hP _ (hi.leafy (hcl b (addr_inv hb))))
            fun _ h9 g9 _ => SafeM.put_bind (fun r hr => ?_) (SafeM.pure hnone)
          cases hr
          exact ((hin.grow g4).grow g9).ok
        · exact SafeM.inside_bind (Steps.splitChild_stuck ha rfl hrn' (hl'.trans (by simpa using hl)) (hk' hrk))
            fun _ _ _ hf => hf.elim
      · rw [if_neg hfull]
        refine SafeM.inside_bind (Steps.insertNonFull_safe hP _ hro) fun _ h9 g9 _ =>
          SafeM.put_bind (fun r hr => ?_) (SafeM.pure hnone)
        cases hr
        exact hro.grow g9

/-- Remove, whether it returns or panics. -/
theorem remove_safe {key : κ} :
    SafeM P (Steps.remove cmp key) (fun r => ∀ v, r.value = some v → ∃ k, P k v) m h := by
  have hnone : ∀ v, (Opt.none : Opt ν).value = some v → ∃ k : κ, P k v := fun v hv => by cases hv
  unfold Steps.remove
  refine SafeM.inv fun hi hr => SafeM.get_bind ?_
  cases hm : m.root with
  | none => exact SafeM.pure hnone
  | some root =>
    simp only
    have hro := hr root hm
    refine SafeM.inside_bind Safe.get fun v h1 _ e => ?_
    obtain ⟨rfl, rfl⟩ := e
    refine SafeM.inside_bind (Reads.safe (search_root hi hro)) fun res h1 _ e => ?_
    obtain ⟨rfl, hf⟩ := e
    refine SafeM.inside_bind (Steps.removeNode_safe _ hro) fun _ h2 g2 _ => ?_
    refine SafeM.inside_bind (M := fun n h' => h' = h2 ∧ h2[root]? = some n) ?_ fun rn h3 _ e => ?_
    · exact Safe.of_bind (Safe.node_bind fun b n hb hn => Safe.pure ⟨rfl, by cases hb; exact hn⟩)
    obtain ⟨rfl, hrn⟩ := e
    have hrest : ∀ (m' : BMap), RootOk P h3 m' → SafeM P (match (generalizing := false) res with
        | none => pure Opt.none
        | some (a, i) => do
          let self ← Unwind.get
          put ⟨self.root, usizeSub self.len 1⟩
          let v ← Steps.inside (Steps.valueAt a i)
          let v ← Eff.lift (deref v)
          pure (Opt.some v) : Eff (BMap × (BStore κ ν × σ)) (Opt ν))
        (fun r => ∀ v, r.value = some v → ∃ k, P k v) m' h3 := by
      intro m' hm'
      cases res with
      | none => exact SafeM.pure hnone
      | some ai =>
        obtain ⟨b, i⟩ := ai
        simp only
        obtain ⟨node, _, hb, hk, _⟩ := hf
        obtain ⟨node', hb', hk'⟩ := OkAt.grow ⟨node, hb, hk⟩ g2
        refine SafeM.get_bind (SafeM.put_bind (m' := ⟨m'.root, usizeSub m'.len 1⟩) (fun r hr => hm' r hr) ?_)
        refine SafeM.inside_bind (M := fun v _ => getAt node'.values (i : Int) = .ok v) ?_ fun v h4 _ hv => ?_
        · refine Safe.of_bind (Safe.valueAt_bind fun n v hn hv => Safe.pure ?_)
          rw [hb'] at hn; cases hn; exact hv
        refine SafeM.lift_bind fun w hw => SafeM.pure fun u hu => ?_
        cases hu
        obtain ⟨k, hkk⟩ := Steps.getAt_len (m := node'.keys) hv (hk'.slots.vlen.trans hk'.slots.klen.symm)
        have hsl := hk'.slots.get hkk hv
        cases v with
        | none => cases hw
        | some v =>
          cases hw
          cases k with
          | none => exact hsl.elim
          | some k => exact ⟨k, hsl⟩
    have hro3 := hro.grow g2
    by_cases h0 : rn.n = 0
    · rw [if_pos h0]
      by_cases hl : rn.leaf = true
      · rw [if_pos hl]
        have : ∀ l, RootOk P h3 ⟨none, l⟩ := fun l r hr => by cases hr
        rw [Eff.pure_bind]
        exact SafeM.put_bind (m' := ⟨none, m.len⟩) (this _) (hrest _ (this _))
      · rw [if_neg hl]
        have hin : Inner P h3 root := by
          obtain ⟨n, hn, hk⟩ := hro3
          rw [hrn] at hn; cases hn
          exact ⟨_, hrn, by simpa using hl, hk⟩
        refine SafeM.inv fun hi3 _ => ?_
        refine SafeM.inside_bind (M := fun c h' => h' = h3 ∧ ∀ b, c = some b → Leafy h3 b) ?_ fun c h7 _ e => ?_
        · refine Safe.of_bind (Safe.childAt_bind fun n c hn hc => Safe.pure ⟨rfl, ?_⟩)
          rintro b rfl
          exact Steps.kid_leafy hin hn hc
        obtain ⟨rfl, hcl⟩ := e
        have : ∀ l, RootOk P h7 ⟨c, l⟩ := fun l r hr => hi3.leafy (hcl r hr)
        exact SafeM.put_bind (this _) (hrest _ (this _))
    · rw [if_neg h0]
      exact hrest m fun r hr => by rw [hm] at hr; cases hr; exact hro3
end

/-! ### The states of a program -/

variable {cmp : κ → κ → Eff σ Ordering}

/-- What holds in every state of a program that recovers. -/
structure StepsOk (P : κ → ν → Prop) (st : SState κ ν σ) : Prop where
  heap : Inv P st.2.1
  roots : ∀ x, RootOk P st.2.1 (st.1 x)

theorem StepsOk.init {P : κ → ν → Prop} {s0 : σ} : StepsOk P ((fun _ => BMap.new, ([], s0)) : SState κ ν σ) :=
  ⟨fun a n hn => by simp at hn, fun x r hr => by simp [BMap.new] at hr⟩

theorem StepsOk.imp {P R : κ → ν → Prop} {st : SState κ ν σ} (hs : StepsOk P st) (h : ∀ k v, P k v → R k v) : StepsOk R st :=
  ⟨fun a n hn hl => (hs.heap a n hn hl).imp h, fun x r hr => by
    obtain ⟨n, hn, hk⟩ := hs.roots x r hr
    exact ⟨n, hn, hk.imp h⟩⟩

theorem StepsOk.on {P : κ → ν → Prop} {st : SState κ ν σ} (hs : StepsOk P st) {x : Nat}
    {m : Eff (BMap × (BStore κ ν × σ)) β} {Q : β → Prop} (hm : SafeM P m Q (st.1 x) st.2.1) :
    StepsOk P (StepOp.on x m st).2 ∧ ∀ v, (StepOp.on x m st).1 = .ok v → Q v := by
  obtain ⟨⟨h1, h2, h3⟩, h4⟩ := hm hs.heap (hs.roots x) st.2.2
  refine ⟨⟨h1, fun y => ?_⟩, h4⟩
  show RootOk P _ (if y = x then _ else _)
  by_cases hy : y = x
  · rw [if_pos hy]; exact h3
  · rw [if_neg hy]; exact (hs.roots y).grow h2

/-- Reading a variable. -/
theorem StepsOk.read {P : κ → ν → Prop} {st : SState κ ν σ} (hs : StepsOk P st) {f : (Nat → BMap) → Eff (BStore κ ν × σ) β}
    {g : β → Obs ν} {Q : β → Prop} (hf : Reads cmp st.2.1 (f st.1) Q) :
    StepsOk P ((do let vars ← Unwind.get; let r ← Unwind.call (f vars); Pure.pure (g r)) st : Except Panic (Obs ν) × SState κ ν σ).2 := by
  have := hf st.2.1 st.2.2 rfl
  simp only [Eff.bind_run, Unwind.get, Unwind.call]
  have e : (st.2.1, st.2.2) = st.2 := rfl
  rw [e] at this
  rcases hr : f st.1 st.2 with ⟨e | v, h', s'⟩
  · rw [hr] at this
    obtain ⟨_, h1⟩ := this
    exact ⟨by subst h1; exact hs.heap, by subst h1; exact hs.roots⟩
  · rw [hr] at this
    obtain ⟨h1, _⟩ := this
    exact ⟨by subst h1; exact hs.heap, by subst h1; exact hs.roots⟩

theorem on_then {x : Nat} {m : Eff (BMap × (BStore κ ν × σ)) β} {g : β → Obs ν} {st : SState κ ν σ} :
    ((do let r ← StepOp.on x m; Pure.pure (g r)) st : Except Panic (Obs ν) × SState κ ν σ).2 = (StepOp.on x m st).2 := by
  rw [Eff.bind_run]
  rcases StepOp.on x m st with ⟨_ | _, _⟩ <;> rfl

theorem StepsOk.step {l : List (κ × ν)} {st : SState κ ν σ} (hs : StepsOk (Got cmp l) st) (o : StepOp κ ν σ) :
    StepsOk (Got cmp (l ++ gave [o])) (o.step cmp st).2 := by
  have hs : StepsOk (Got cmp (l ++ gave [o])) st := hs.imp fun k v => Got.mono (by intro p hp; simp [hp])
  cases o with
  | call x o =>
    cases o with
    | insert k v =>
      unfold StepOp.step
      rw [on_then]
      refine (hs.on (insert_safe hs.heap (hs.roots x) (fun _ _ h => h) ⟨⟨v, ?_⟩, k, ?_, .inl rfl⟩ ?_)).1
      · simp [gave]
      · simp [gave]
      · rintro k' v' ⟨h1, _⟩ hs
        exact ⟨h1, k, by simp [gave], .inr hs⟩
    | remove k =>
      unfold StepOp.step
      rw [on_then]
      exact (hs.on remove_safe).1
    | get k => exact hs.read (f := fun vars => bGet cmp (vars x) k) (bGet_reads hs.heap (hs.roots x) k)
    | containsKey k =>
      exact hs.read (f := fun vars => bContainsKey cmp (vars x) k) (bContainsKey_reads hs.heap (hs.roots x) k)
    | len => exact hs
    | isEmpty => exact hs
    | clear =>
      refine ⟨hs.heap, fun y => ?_⟩
      show RootOk _ _ (if y = x then BMap.new else st.1 y)
      by_cases hy : y = x
      · rw [if_pos hy]; intro r hr; cases hr
      · rw [if_neg hy]; exact hs.roots y
  | assign x y =>
    refine ⟨hs.heap, fun z => ?_⟩
    show RootOk _ _ (if z = x then st.1 y else st.1 z)
    by_cases hz : z = x
    · rw [if_pos hz]; exact hs.roots y
    · rw [if_neg hz]; exact hs.roots z
  | other f => exact ⟨hs.heap, hs.roots⟩

theorem Spec.gave_cons (o : StepOp κ ν σ) (os : List (StepOp κ ν σ)) : gave (o :: os) = gave [o] ++ gave os := by
  unfold gave
  rw [← List.filterMap_append]
  rfl

theorem StepsOk.run (os : List (StepOp κ ν σ)) : ∀ {l : List (κ × ν)} {st : SState κ ν σ}, StepsOk (Got cmp l) st →
    StepsOk (Got cmp (l ++ gave os)) (StepOp.run cmp os st).2 := by
  induction os with
  | nil => intro l st hs; simpa [gave, StepOp.run] using hs
  | cons o os ih =>
    intro l st hs
    rw [gave_cons, ← List.append_assoc]
    exact ih (hs.step o)

theorem Spec.Recovered.ok {os : List (StepOp κ ν σ)} {st : SState κ ν σ} (ha : Recovered cmp os st) :
    StepsOk (Got cmp (gave os)) st := by
  obtain ⟨s0, rfl⟩ := ha
  have := StepsOk.run (cmp := cmp) os (StepsOk.init (P := Got cmp []) (s0 := s0))
  simpa using this

theorem Spec.Answers.says {ord : κ → κ → Ordering} (ha : Answers cmp ord) {a b : κ} (h : Says cmp a b) : ord a b = .eq := by
  obtain ⟨s, s', h⟩ := h
  exact (ha a b s _ s' h).symm

/-- With an ordering of the keys that Cmp gives when it returns. -/
theorem Spec.Got.equal {ord : κ → κ → Ordering} (ho : LawfulCmp ord) (ha : Answers cmp ord) {l : List (κ × ν)} {key k : κ}
    {v : ν} (hg : Got cmp l k v) (hs : Says cmp key k) : ∃ k', (k', v) ∈ l ∧ ord k' key = .eq := by
  obtain ⟨_, k', h1, h2⟩ := hg
  have h3 := (ho.eq_comm _ _).1 (ha.says hs)
  rcases h2 with rfl | h2
  · exact ⟨k', h1, h3⟩
  · exact ⟨k', h1, cmp_eq_trans ho (ha.says h2) h3⟩

/-! ### C148 -/

/-- A Cmp that panics when its time has come. -/
def Spec.oneShot (a b : Nat) : Eff Nat Ordering := fun s => (if s = 1 then .error .explicit else .ok (compare a b), s - 1)

/-- Twelve keys; Cmp panics in the insertion of 13; twelve more keys and twelve removals, most of which panic. -/
def stepsExample : List (StepOp Nat Nat Nat) :=
  (List.range 12).map (fun i => .call 0 (.insert (2 * i) (20 * i))) ++ [.other fun _ => 4, .call 0 (.insert 13 130), .assign 1 0] ++
  (List.range 12).map (fun i => .call 0 (.insert (2 * i + 1) (20 * i + 10))) ++
  (List.range 12).map (fun i => .call 1 (.remove (2 * i + 1)))


/-- C148: Get and ContainsKey change no entry and panic only when Cmp does. -/
theorem C148_lookup {os : List (StepOp κ ν σ)} {st : SState κ ν σ} (ha : Recovered cmp os st) (x : Nat) (key : κ) (s : σ) :
    (bGet cmp (st.1 x) key (st.2.1, s)).2.1 = st.2.1 ∧ (bContainsKey cmp (st.1 x) key (st.2.1, s)).2.1 = st.2.1 ∧
    (∀ e, (bGet cmp (st.1 x) key (st.2.1, s)).1 = .error e → ∃ a b s', (cmp a b s').1 = .error e) ∧
    (∀ e, (bContainsKey cmp (st.1 x) key (st.2.1, s)).1 = .error e → ∃ a b s', (cmp a b s').1 = .error e) := by
  have h1 := bGet_reads (cmp := cmp) ha.ok.heap (ha.ok.roots x) key _ s rfl
  have h2 := bContainsKey_reads (cmp := cmp) ha.ok.heap (ha.ok.roots x) key _ s rfl
  revert h1 h2
  rcases bGet cmp (st.1 x) key (st.2.1, s) with ⟨e | r, h', s'⟩ <;>
    rcases bContainsKey cmp (st.1 x) key (st.2.1, s) with ⟨e' | r', h'', s''⟩
  · exact fun h1 h2 => ⟨h1.2, h2.2, fun _ h => by cases h; exact h1.1, fun _ h => by cases h; exact h2.1⟩
  · exact fun h1 h2 => ⟨h1.2, h2.1, fun _ h => by cases h; exact h1.1, fun _ h => by cases h⟩
  · exact fun h1 h2 => ⟨h1.1, h2.2, (fun _ h => by cases h), fun _ h => by cases h; exact h2.1⟩
  · exact fun h1 h2 => ⟨h1.1, h2.1, (fun _ h => by cases h), fun _ h => by cases h⟩
example : ∃ st, Recovered oneShot stepsExample st ∧ ∀ x key s,
    (bGet oneShot (st.1 x) key (st.2.1, s)).2.1 = st.2.1 :=
  ⟨_, ⟨0, rfl⟩, fun x key s => (C148_lookup ⟨0, rfl⟩ x key s).1⟩
example : (StepOp.run oneShot stepsExample (fun _ => BMap.new, ([], 0))).1.filterMap
      (fun r => match r with | .ok _ => none | .error e => some e) =
    Panic.explicit :: List.replicate 14 .indexOutOfRange := by decide +kernel

/-- C148: a value that Get returns was given to Insert for an equal key; a key that ContainsKey finds was given. -/
theorem C148_get {ord : κ → κ → Ordering} (ho : LawfulCmp ord) (hc : Answers cmp ord) {os : List (StepOp κ ν σ)}
    {st : SState κ ν σ} (ha : Recovered cmp os st) (x : Nat) (key : κ) (s : σ) :
    (∀ v w, bGet cmp (st.1 x) key (st.2.1, s) = (.ok (Opt.some v), w) → ∃ k, (k, v) ∈ gave os ∧ ord k key = .eq) ∧
    (∀ w, bContainsKey cmp (st.1 x) key (st.2.1, s) = (.ok true, w) → ∃ k v, (k, v) ∈ gave os ∧ ord k key = .eq) := by
  have h1 := bGet_reads (cmp := cmp) ha.ok.heap (ha.ok.roots x) key _ s rfl
  have h2 := bContainsKey_reads (cmp := cmp) ha.ok.heap (ha.ok.roots x) key _ s rfl
  refine ⟨fun v w hr => ?_, fun w hr => ?_⟩
  · rw [hr] at h1
    obtain ⟨k, hk, hs⟩ := h1.2 v rfl
    exact hk.equal ho hc hs
  · rw [hr] at h2
    obtain ⟨k, v, hk, hs⟩ := h2.2 rfl
    obtain ⟨k', h3, h4⟩ := hk.equal ho hc hs
    exact ⟨k', v, h3, h4⟩
theorem oneShot_answers : Answers oneShot compare := by
  intro a b s o s' h
  unfold oneShot at h
  rw [Prod.ext_iff] at h
  obtain ⟨h, _⟩ := h
  simp only at h
  split at h
  · cases h
  · cases h; rfl
example : ([0, 7, 1, 22].map fun k => match StepOp.run oneShot stepsExample (fun _ => BMap.new, ([], 0)) with
    | (_, st) => match (bGet oneShot (st.1 0) k st.2).1 with | .ok r => r.value | .error _ => none) =
    [some 0, some 70, none, none] := by decide +kernel

/-- C148: IntoIter, Keys and Values give entries that were given to Insert, then None forever. -/
theorem C148_iter (g : Growth) {os : List (StepOp κ ν σ)} {st : SState κ ν σ} (ha : Recovered cmp os st) (x : Nat) :
    (∃ it, ∃ l : List (Pair κ ν), (st.1 x).intoIter g st.2.1 = .ok it ∧
      (∀ n, it.nexts n = .ok ((List.range n).map fun i => l[i]?)) ∧
      ∀ p ∈ l, (∃ v, (p.key, v) ∈ gave os) ∧ ∃ k, (k, p.value) ∈ gave os ∧ (k = p.key ∨ Says cmp k p.key)) ∧
    (∃ it, ∃ l : List κ, (st.1 x).keys g st.2.1 = .ok it ∧ (∀ n, it.nexts n = .ok ((List.range n).map fun i => l[i]?)) ∧
      ∀ k ∈ l, ∃ v, (k, v) ∈ gave os) ∧
    (∃ it, ∃ l : List ν, (st.1 x).values g st.2.1 = .ok it ∧ (∀ n, it.nexts n = .ok ((List.range n).map fun i => l[i]?)) ∧
      ∀ v ∈ l, ∃ k, (k, v) ∈ gave os) := by
  obtain ⟨⟨w1, e1, q1⟩, ⟨w2, e2, q2⟩, ⟨w3, e3, q3⟩⟩ := iters_root ha.ok.heap (ha.ok.roots x) g
  refine ⟨⟨_, w1.data, e1, C53_vec_iter_next w1, fun p hp => q1 p hp⟩,
    ⟨_, w2.data, e2, C53_vec_iter_next w2, fun k hk => ?_⟩, ⟨_, w3.data, e3, C53_vec_iter_next w3, fun v hv => ?_⟩⟩
  · obtain ⟨v, h1, _⟩ := q2 k hk
    exact h1
  · obtain ⟨k, _, k', h2, _⟩ := q3 v hv
    exact ⟨k', h2⟩
example : (match StepOp.run oneShot stepsExample (fun _ => BMap.new, ([], 0)) with
    | (_, st) => match (st.1 1).keys doubling st.2.1 with | .ok it => it.vec.data | .error _ => []) =
    [0, 2, 3, 4, 5, 6, 7, 8, 9, 10, 11, 12, 13, 14, 15, 16, 17, 18, 20, 20] := by decide +kernel

/-- C148: a value that Insert returns was given for an equal key. -/
theorem C148_insert {ord : κ → κ → Ordering} (ho : LawfulCmp ord) (hc : Answers cmp ord) {os : List (StepOp κ ν σ)}
    {st : SState κ ν σ} (ha : Recovered cmp os st) (x : Nat) {key : κ} {value old : ν} {s : σ}
    {w : BMap × (BStore κ ν × σ)} (hi : Steps.insert cmp key value (st.1 x, (st.2.1, s)) = (.ok (Opt.some old), w)) :
    ∃ k, (k, old) ∈ gave os ∧ ord k key = .eq := by
  have hs := (ha.ok.imp fun k v => Got.mono (l' := gave os ++ [(key, value)]) (by intro p hp; simp [hp]))
  have := insert_safe (cmp := cmp) (P := Got cmp (gave os ++ [(key, value)])) (key := key)
    (value := value) ha.ok.heap (ha.ok.roots x) (fun k v => Got.mono (by intro p hp; simp [hp])) ⟨⟨value, by simp⟩, key, by simp, .inl rfl⟩ (fun k v h1 h2 => ⟨h1.1, key, by simp, .inr h2⟩) hs.heap
    (hs.roots x) s
  rw [hi] at this
  obtain ⟨k, hk, h2⟩ := this.2 _ rfl old rfl
  exact hk.equal ho hc h2
example : (match StepOp.run oneShot stepsExample (fun _ => BMap.new, ([], 0)) with
    | (_, st) => match (Steps.insert oneShot 4 45 (st.1 0, (st.2.1, 0))).1 with | .ok r => r.value | .error _ => none) =
    some 40 := by decide +kernel

/-- C148: a value that Remove returns was given. -/
theorem C148_remove {os : List (StepOp κ ν σ)} {st : SState κ ν σ} (ha : Recovered cmp os st) (x : Nat) {key : κ} {v : ν}
    {s : σ} {w : BMap × (BStore κ ν × σ)} (hi : Steps.remove cmp key (st.1 x, (st.2.1, s)) = (.ok (Opt.some v), w)) :
    ∃ k, (k, v) ∈ gave os := by
  have := remove_safe (cmp := cmp) (key := key) ha.ok.heap (ha.ok.roots x) s
  rw [hi] at this
  obtain ⟨k, _, k', h2, _⟩ := this.2 _ rfl v rfl
  exact ⟨k', h2⟩
example : (match StepOp.run oneShot [.call 0 (.insert 5 50), .call 0 (.insert 3 30), .other fun _ => 1, .call 0 (.insert 4 40)]
      (fun _ => BMap.new, ([], 0)) with
    | (rs, st) => (rs.map fun r => r.isOk, match (Steps.remove oneShot 3 (st.1 0, (st.2.1, 0))).1 with
      | .ok r => r.value | .error _ => none)) = ([true, true, true, false], some 50) := by decide +kernel

/-- What Get finds. -/
def Spec.found (st : SState Nat Nat Nat) (k : Nat) : Option Nat :=
  match (bGet oneShot (st.1 0) k st.2).1 with | .ok r => r.value | .error _ => none
/-- What IntoIter gives. -/
def Spec.listed (st : SState Nat Nat Nat) : List Nat :=
  match (st.1 0).intoIter doubling st.2.1 with | .ok it => it.vec.data.map Pair.key | .error _ => []

/-- C148: an Insert that panics can take another key out of the iteration. -/
theorem C148_insert_fails : ∃ os st, Recovered oneShot os st ∧ 30 ∈ listed st ∧
    ((StepOp.call 0 (.insert 5 50)).step oneShot st).1 = .error .indexOutOfRange ∧
    30 ∉ listed ((StepOp.call 0 (.insert 5 50)).step oneShot st).2 := by
  refine ⟨([0, 2, 4, 6, 8, 10, 12, 14, 16, 18, 20, 21, 22, 23, 24, 25, 26, 27, 28, 29, 30].map fun k => .call 0 (.insert k (10 * k))),
    _, ⟨0, rfl⟩, ?_, ?_, ?_⟩ <;> decide +kernel

/-- C148: a Remove that panics can take away its key and another one, without changing Len. -/
theorem C148_remove_fails : ∃ os st, Recovered oneShot os st ∧ found st 20 = some 200 ∧ found st 30 = some 300 ∧
    ((StepOp.call 0 (.remove 20)).step oneShot st).1 = .error .nilDeref ∧
    found ((StepOp.call 0 (.remove 20)).step oneShot st).2 20 = none ∧
    found ((StepOp.call 0 (.remove 20)).step oneShot st).2 30 = none ∧
    (((StepOp.call 0 (.remove 20)).step oneShot st).2.1 0).len = (st.1 0).len := by
  refine ⟨([0, 1, 2, 3, 4, 5, 6, 7, 8, 9, 10, 30, 11, 20, 21].map fun k => .call 0 (.insert k (10 * k))),
    _, ⟨0, rfl⟩, ?_, ?_, ?_, ?_, ?_, ?_⟩ <;> decide +kernel

end Gost
