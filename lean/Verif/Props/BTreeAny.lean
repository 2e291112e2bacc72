import Verif.Lemmas.BTreeAny
import Verif.Props.BTreeSet
/-
Property C147: what BTreeMap and BTreeSet keep after every history, whatever was lost.
-/
namespace Gost
open Spec BTree
open Unwind (load_inv)
variable {κ ν : Type} {cmp : κ → κ → Ordering}

/-! ### Programs with many map variables -/

/-- A call on variable `x`, or the assignment `x = y`. -/
inductive AnyOp (κ ν : Type) where
  | call (x : Nat) (o : HOp κ ν) | assign (x y : Nat)

/-- The heap and the variables. -/
abbrev BVars (κ ν : Type) := BStore κ ν × (Nat → BMap)

/-- Variables, all of them BTreeMapNew. -/
def BVars.init : BVars κ ν := ([], fun _ => BMap.new)

/-- One step of a program. -/
def AnyOp.step (cmp : κ → κ → Ordering) : AnyOp κ ν → BVars κ ν → Go (BVars κ ν × Obs ν)
  | .call x o, (h, vars) => do
    let ((h, m), r) ← BMap.step cmp o (h, vars x)
    .ok ((h, fun y => if y = x then m else vars y), r)
  | .assign x y, (h, vars) => .ok ((h, fun z => if z = x then vars y else vars z), .unit)

/-- The pairs given to Insert, on any variable. -/
def Spec.inserted (os : List (AnyOp κ ν)) : List (κ × ν) :=
  os.filterMap fun
    | .call _ (.insert k v) => some (k, v)
    | _ => none

/-- `h` and `vars` are the state after the calls `os`, all of which returned. -/
def Spec.After (cmp : κ → κ → Ordering) (os : List (AnyOp κ ν)) (h : BStore κ ν) (vars : Nat → BMap) : Prop :=
  ∃ rs, runGo (AnyOp.step cmp) os BVars.init = .ok (rs, (h, vars))

/-- A key together with a value that was inserted for it or for an equal key. -/
def Spec.Entry (cmp : κ → κ → Ordering) (l : List (κ × ν)) (k : κ) (v : ν) : Prop :=
  (∃ v', (k, v') ∈ l) ∧ ∃ k', (k', v) ∈ l ∧ (k' = k ∨ cmp k' k = .eq)

theorem Spec.Entry.mono {l l' : List (κ × ν)} (h : ∀ p ∈ l, p ∈ l') {k : κ} {v : ν} (he : Entry cmp l k v) :
    Entry cmp l' k v := by
  obtain ⟨⟨v', h1⟩, k', h2, h3⟩ := he
  exact ⟨⟨v', h _ h1⟩, k', h _ h2, h3⟩

/-! ### The operations -/

/-- The root of a map is a node of the heap. -/
def RootIn (h : BStore κ ν) (m : BMap) : Prop := ∀ r, m.root = some r → r < h.length

theorem RootIn.ext {h h' : BStore κ ν} {m : BMap} (hr : RootIn h m) (he : Ext h h') : RootIn h' m := by
  intro r hm
  obtain ⟨n, hn, _⟩ := he r _ (List.getElem?_eq_getElem (hr r hm))
  exact (List.getElem?_eq_some_iff.1 hn).1

section
variable {P : κ → ν → Prop}

theorem slot_value {k : κ} {v : Option ν} (h : Slot P (some k) v) : ∃ v', v = some v' ∧ P k v' := by
  cases v with
  | none => exact h.elim
  | some v => exact ⟨v, rfl, h⟩

/-- A slot that was found has a value. -/
theorem found_value {h : BStore κ ν} (ho : HeapOk P h) {node : BNode κ ν} {b i : Nat} {k : κ} (hb : h[b]? = some node)
    (hk : node.keys[i]? = some (some k)) : ∃ v, index node.values i = .ok (some v) ∧ P k v := by
  have hn := ho b node hb
  have hi := (List.getElem?_eq_some_iff.1 hk).1
  rw [hn.slots.klen, ← hn.slots.vlen] at hi
  have hv : node.values[i]? = some node.values[i] := List.getElem?_eq_getElem hi
  obtain ⟨v, hv', hP⟩ := slot_value (hn.slots.slot i _ _ hk hv)
  rw [hv'] at hv
  exact ⟨v, by rw [index, hv], hP⟩

theorem BMap.insert_keeps {h h' : BStore κ ν} {m m' : BMap} {key : κ} {value : ν} {r : Opt ν} (ho : HeapOk P h)
    (hr : RootIn h m) (hP : P key value) (hO : ∀ k v, P k v → cmp key k = .eq → P k value)
    (he : m.insert cmp h key value = .ok (h', m', r)) : Keeps P h h' ∧ RootIn h' m' := by
  obtain ⟨root, len⟩ := m
  unfold BMap.insert at he
  cases root with
  | none =>
    simp only at he
    obtain ⟨ks, h1, he⟩ := bind_ok_inv he
    obtain ⟨vs, h2, he⟩ := bind_ok_inv he
    cases he
    refine ⟨ho.push ⟨(Paired.blank (P := P)).setIndex (k := some key) (v := some value) hP h1 h2, ?_, ?_⟩, ?_⟩
    · simp [blank, capacity]
    · intro hf; cases hf
    · intro r hr; cases hr; simp
  | some root =>
    simp only at he
    obtain ⟨result, hs, he⟩ := bind_ok_inv he
    cases result with
    | some ai =>
      obtain ⟨b, i⟩ := ai
      obtain ⟨node, k, hb, hk, hc⟩ := search_slot _ hs
      obtain ⟨v, hv, hPk⟩ := found_value ho hb hk
      simp only at he
      obtain ⟨node', hl, he⟩ := bind_ok_inv he
      have hl := load_inv hl
      rw [hb] at hl; cases hl
      obtain ⟨old, _, he⟩ := bind_ok_inv he
      obtain ⟨vs, h1, he⟩ := bind_ok_inv he
      obtain ⟨o2, _, he⟩ := bind_ok_inv he
      cases he
      have hn := ho b node hb
      have hkeep : node.keys.set i (some k) = node.keys := by
        have := List.getElem?_eq_some_iff.1 hk
        rw [← this.2]; simp
      have hp := hn.slots.set i (k := some k) (v := some value) (hO k v hPk hc)
      rw [hkeep, ← setIndex_inv h1] at hp
      have k1 := ho.set (node' := { node with values := vs }) hb rfl ⟨hp, hn.clen, hn.kids⟩
      exact ⟨k1, hr.ext k1.2⟩
    | none =>
      simp only at he
      obtain ⟨rn, hl, he⟩ := bind_ok_inv he
      have hl := load_inv hl
      by_cases hfull : rn.n = (capacity : Int)
      · rw [if_pos hfull] at he
        obtain ⟨cs, h1, he⟩ := bind_ok_inv he
        obtain ⟨h2, hsp, he⟩ := bind_ok_inv he
        obtain ⟨nr, _, he⟩ := bind_ok_inv he
        obtain ⟨k, _, he⟩ := bind_ok_inv he
        obtain ⟨k', _, he⟩ := bind_ok_inv he
        obtain ⟨c, _, he⟩ := bind_ok_inv he
        obtain ⟨c', _, he⟩ := bind_ok_inv he
        obtain ⟨h3, hin, he⟩ := bind_ok_inv he
        cases he
        -- the new root is a node whose child may not be a leaf yet; then the split panics
        by_cases hleaf : rn.leaf = true
        · have k1 := ho.push (node := { (blank false capacity 0 : BNode κ ν) with childs := cs })
            ⟨Paired.blank, by rw [setIndex_inv h1]; simp [blank, capacity], fun _ => by
              rw [setIndex_inv h1]
              intro j d hd
              by_cases hj : 0 = j
              · subst hj
                simp [blank, capacity] at hd
                subst hd
                exact ⟨rn, hl, hleaf⟩
              · rw [List.getElem?_set_ne hj] at hd
                have := List.eq_of_mem_replicate (List.mem_of_getElem? hd)
                cases this⟩
          have ha : (h ++ [{ (blank false capacity 0 : BNode κ ν) with childs := cs }])[h.length]? =
              some { (blank false capacity 0 : BNode κ ν) with childs := cs } := by simp
          have k2 := splitChild_keeps k1.1 ha (fun _ => .inl rfl) hsp
          have k3 := insertNonFull_keeps hP _ k2.1 hin
          have kk := Keeps.trans k1 (Keeps.trans k2 k3)
          refine ⟨kk, ?_⟩
          intro r hr
          cases hr
          obtain ⟨n, hn, _⟩ := (Keeps.trans k2 k3).2 h.length _ ha
          exact (List.getElem?_eq_some_iff.1 hn).1
        · exfalso
          simp only [Bool.not_eq_true] at hleaf
          have ha : (h ++ [{ (blank false capacity 0 : BNode κ ν) with childs := cs }])[h.length]? =
              some { (blank false capacity 0 : BNode κ ν) with childs := cs } := by simp
          have hrl : (h ++ [{ (blank false capacity 0 : BNode κ ν) with childs := cs }])[root]? = some rn := by
            rw [List.getElem?_append_left (List.getElem?_eq_some_iff.1 hl).1]; exact hl
          exact splitChild_internal ha rfl hrl hleaf (ho root rn hl).clen hsp
      · rw [if_neg hfull] at he
        obtain ⟨h1, hin, he⟩ := bind_ok_inv he
        cases he
        have k1 := insertNonFull_keeps hP _ ho hin
        exact ⟨k1, hr.ext k1.2⟩

theorem BMap.insert_old {h h' : BStore κ ν} {m m' : BMap} {key : κ} {value : ν} {r : Opt ν} (ho : HeapOk P h)
    (he : m.insert cmp h key value = .ok (h', m', r)) {old : ν} (hold : r.value = some old) :
    ∃ k, P k old ∧ cmp key k = .eq := by
  obtain ⟨root, len⟩ := m
  unfold BMap.insert at he
  cases root with
  | none =>
    simp only at he
    obtain ⟨ks, h1, he⟩ := bind_ok_inv he
    obtain ⟨vs, h2, he⟩ := bind_ok_inv he
    cases he
    cases hold
  | some root =>
    simp only at he
    obtain ⟨result, hs, he⟩ := bind_ok_inv he
    cases result with
    | some ai =>
      obtain ⟨b, i⟩ := ai
      obtain ⟨node, k, hb, hk, hc⟩ := search_slot _ hs
      obtain ⟨v, hv, hPk⟩ := found_value ho hb hk
      simp only at he
      obtain ⟨node', hl, he⟩ := bind_ok_inv he
      have hl := load_inv hl
      rw [hb] at hl; cases hl
      obtain ⟨o1, ho1, he⟩ := bind_ok_inv he
      rw [hv] at ho1; cases ho1
      obtain ⟨vs, h1, he⟩ := bind_ok_inv he
      obtain ⟨o2, ho2, he⟩ := bind_ok_inv he
      cases ho2
      cases he
      cases hold
      exact ⟨k, hPk, hc⟩
    | none =>
      simp only at he
      obtain ⟨rn, hl, he⟩ := bind_ok_inv he
      split at he
      · obtain ⟨cs, h1, he⟩ := bind_ok_inv he
        obtain ⟨h2, hsp, he⟩ := bind_ok_inv he
        obtain ⟨nr, _, he⟩ := bind_ok_inv he
        obtain ⟨k, _, he⟩ := bind_ok_inv he
        obtain ⟨k', _, he⟩ := bind_ok_inv he
        obtain ⟨c, _, he⟩ := bind_ok_inv he
        obtain ⟨c', _, he⟩ := bind_ok_inv he
        obtain ⟨h3, hin, he⟩ := bind_ok_inv he
        cases he
        cases hold
      · obtain ⟨h1, hin, he⟩ := bind_ok_inv he
        cases he
        cases hold

theorem BMap.remove_keeps {h h' : BStore κ ν} {m m' : BMap} {key : κ} {r : Opt ν} (ho : HeapOk P h)
    (hr : RootIn h m) (he : m.remove cmp h key = .ok (h', m', r)) :
    Keeps P h h' ∧ RootIn h' m' ∧ ∀ v, r.value = some v → ∃ k, P k v := by
  obtain ⟨root, len⟩ := m
  unfold BMap.remove at he
  cases root with
  | none =>
    simp only at he
    cases he
    exact ⟨Keeps.rfl' ho, hr, fun v hv => by cases hv⟩
  | some root =>
    simp only at he
    obtain ⟨result, hs, he⟩ := bind_ok_inv he
    obtain ⟨h1, hrm, he⟩ := bind_ok_inv he
    obtain ⟨rn, hl, he⟩ := bind_ok_inv he
    obtain ⟨nr, hnr, he⟩ := bind_ok_inv he
    have hl := load_inv hl
    have k1 := removeNode_keeps _ ho hrm
    have hroot : ∀ l, RootIn h1 ⟨nr, l⟩ := by
      intro l r hr'
      simp only at hr'
      subst hr'
      split at hnr
      · split at hnr
        · cases hnr
        · next hleaf =>
          obtain ⟨n, hn, _⟩ := (k1.1 root rn hl).kids (by simpa using hleaf) 0 r (index_inv hnr)
          exact (List.getElem?_eq_some_iff.1 hn).1
      · cases hnr
        exact (List.getElem?_eq_some_iff.1 hl).1
    cases result with
    | none =>
      simp only at he
      cases he
      exact ⟨k1, hroot _, fun v hv => by cases hv⟩
    | some ai =>
      obtain ⟨b, i⟩ := ai
      simp only at he
      obtain ⟨node, hb, he⟩ := bind_ok_inv he
      obtain ⟨v, hv, he⟩ := bind_ok_inv he
      obtain ⟨v', hv', he⟩ := bind_ok_inv he
      cases he
      refine ⟨k1, hroot _, fun w hw => ?_⟩
      cases hw
      have hn := k1.1 b node (load_inv hb)
      have hv := index_inv hv
      have hi := (List.getElem?_eq_some_iff.1 hv).1
      rw [hn.slots.vlen, ← hn.slots.klen] at hi
      have hk : node.keys[i]? = some node.keys[i] := List.getElem?_eq_getElem hi
      have hsl := hn.slots.slot i _ _ hk hv
      cases v with
      | none => cases hv'
      | some v =>
        cases hv'
        revert hsl
        cases node.keys[i] with
        | none => intro hsl; exact hsl.elim
        | some k => intro hsl; exact ⟨k, hsl⟩

theorem BMap.get_total {h : BStore κ ν} {m : BMap} (ho : HeapOk P h) (hr : RootIn h m) (key : κ) :
    ∃ r, m.get cmp h key = .ok r ∧ m.containsKey cmp h key = .ok r.isSome ∧
      ∀ v, r.value = some v → ∃ k, P k v ∧ cmp key k = .eq := by
  obtain ⟨root, len⟩ := m
  unfold BMap.get BMap.containsKey
  cases root with
  | none => exact ⟨Opt.none, rfl, rfl, fun v hv => by cases hv⟩
  | some root =>
    have hlt := hr root rfl
    obtain ⟨d, hd⟩ : ∃ d, h.length + 1 = d + 2 := ⟨h.length - 1, by omega⟩
    obtain ⟨r, hs⟩ := search_total (cmp := cmp) ho (key := key) hlt d
    simp only [hd, hs, Go.bind_ok]
    cases r with
    | none => exact ⟨Opt.none, rfl, rfl, fun v hv => by cases hv⟩
    | some ai =>
      obtain ⟨b, i⟩ := ai
      obtain ⟨node, k, hb, hk, hc⟩ := search_slot _ hs
      obtain ⟨v, hv, hPk⟩ := found_value ho hb hk
      refine ⟨Opt.some v, by simp [load_of hb, hv], rfl, ?_⟩
      intro w hw; cases hw
      exact ⟨k, hPk, hc⟩

theorem BMap.iters_total {h : BStore κ ν} {m : BMap} (ho : HeapOk P h) (hr : RootIn h m) (g : Growth) :
    (∃ w, m.intoIter g h = .ok ⟨w, 0⟩ ∧ ∀ p ∈ w.data, P p.key p.value) ∧
    (∃ w, m.keys g h = .ok ⟨w, 0⟩ ∧ ∀ k ∈ w.data, ∃ v, P k v) ∧
    (∃ w, m.values g h = .ok ⟨w, 0⟩ ∧ ∀ v ∈ w.data, ∃ k, P k v) := by
  obtain ⟨root, len⟩ := m
  unfold BMap.intoIter BMap.keys BMap.values
  cases root with
  | none => exact ⟨⟨_, rfl, no_data⟩, ⟨_, rfl, no_data⟩, ⟨_, rfl, no_data⟩⟩
  | some root =>
    have hlt := hr root rfl
    obtain ⟨d, hd⟩ : ∃ d, h.length + 1 = d + 2 := ⟨h.length - 1, by omega⟩
    obtain ⟨⟨w1, e1, q1⟩, ⟨w2, e2, q2⟩, ⟨w3, e3, q3⟩⟩ := vecs_total ho g d hlt
    simp only [hd, e1, e2, e3, Go.bind_ok]
    exact ⟨⟨w1, rfl, q1⟩, ⟨w2, rfl, q2⟩, ⟨w3, rfl, q3⟩⟩
end

/-! ### Histories -/

/-- The state after any history. -/
structure AnyOk (P : κ → ν → Prop) (s : BVars κ ν) : Prop where
  heap : HeapOk P s.1
  roots : ∀ x, RootIn s.1 (s.2 x)

theorem AnyOk.init {P : κ → ν → Prop} : AnyOk P (BVars.init : BVars κ ν) :=
  ⟨fun a n hn => by simp [BVars.init] at hn, fun x r hr => by simp [BVars.init, BMap.new] at hr⟩

/-- The entry of an operation. -/
def Spec.given : AnyOp κ ν → List (κ × ν)
  | .call _ (.insert k v) => [(k, v)]
  | _ => []

theorem Spec.inserted_cons (o : AnyOp κ ν) (os : List (AnyOp κ ν)) : inserted (o :: os) = given o ++ inserted os := by
  unfold inserted
  rw [List.filterMap_cons]
  cases o with
  | assign x y => rfl
  | call x o => cases o <;> rfl

theorem AnyOk.step {l : List (κ × ν)} {s s' : BVars κ ν} {o : AnyOp κ ν} {r : Obs ν} (hs : AnyOk (Entry cmp l) s)
    (he : AnyOp.step cmp o s = .ok (s', r)) : AnyOk (Entry cmp (l ++ given o)) s' := by
  obtain ⟨h, vars⟩ := s
  have hup : ∀ {l' : List (κ × ν)}, HeapOk (Entry cmp (l ++ l')) h := fun {l'} =>
    hs.heap.imp fun k v => Entry.mono (by intro p hp; simp [hp])
  have hsame : ∀ (x : Nat) (m : BMap), RootIn h m →
      ∀ y, RootIn h (if y = x then m else vars y) := by
    intro x m hm y
    split
    · exact hm
    · exact hs.roots y
  cases o with
  | assign x y =>
    simp only [AnyOp.step] at he
    cases he
    exact ⟨by simpa [given] using hs.heap, hsame x _ (hs.roots y)⟩
  | call x o =>
    simp only [AnyOp.step] at he
    obtain ⟨⟨⟨h1, m1⟩, r1⟩, h2, he⟩ := bind_ok_inv he
    cases he
    have hext : ∀ {h1 : BStore κ ν} {m : BMap}, Ext h h1 → RootIn h1 m →
        ∀ y, RootIn h1 (if y = x then m else vars y) := by
      intro h1 m he hm y
      split
      · exact hm
      · exact (hs.roots y).ext he
    cases o with
    | insert k v =>
      simp only [BMap.step] at h2
      obtain ⟨⟨h3, m3, r3⟩, h4, h2⟩ := bind_ok_inv h2
      cases h2
      obtain ⟨hk, hr⟩ := BMap.insert_keeps (P := Entry cmp (l ++ given (.call x (.insert k v)))) hup (hs.roots x)
        ⟨⟨v, by simp [given]⟩, k, by simp [given], .inl rfl⟩
        (fun k' v' he hc => ⟨he.1, k, by simp [given], .inr hc⟩) h4
      exact ⟨hk.1, hext hk.2 hr⟩
    | remove k =>
      simp only [BMap.step] at h2
      obtain ⟨⟨h3, m3, r3⟩, h4, h2⟩ := bind_ok_inv h2
      cases h2
      obtain ⟨hk, hr, _⟩ := BMap.remove_keeps (P := Entry cmp (l ++ given (.call x (.remove k)))) hup (hs.roots x) h4
      exact ⟨hk.1, hext hk.2 hr⟩
    | get k =>
      simp only [BMap.step] at h2
      obtain ⟨r3, h4, h2⟩ := bind_ok_inv h2
      cases h2
      exact ⟨hup, hsame x _ (hs.roots x)⟩
    | containsKey k =>
      simp only [BMap.step] at h2
      obtain ⟨r3, h4, h2⟩ := bind_ok_inv h2
      cases h2
      exact ⟨hup, hsame x _ (hs.roots x)⟩
    | len => cases h2; exact ⟨hup, hsame x _ (hs.roots x)⟩
    | isEmpty => cases h2; exact ⟨hup, hsame x _ (hs.roots x)⟩
    | clear => cases h2; exact ⟨hup, hsame x _ (fun r hr => by cases hr)⟩

theorem AnyOk.run {os : List (AnyOp κ ν)} : ∀ {l : List (κ × ν)} {s s' : BVars κ ν} {rs : List (Obs ν)},
    AnyOk (Entry cmp l) s → runGo (AnyOp.step cmp) os s = .ok (rs, s') → AnyOk (Entry cmp (l ++ inserted os)) s' := by
  induction os with
  | nil => intro l s s' rs hs he; cases he; simpa [inserted] using hs
  | cons o os ih =>
    intro l s s' rs hs he
    unfold runGo at he
    obtain ⟨⟨s1, r1⟩, h1, he⟩ := bind_ok_inv he
    obtain ⟨⟨rs2, s2⟩, h2, he⟩ := bind_ok_inv he
    cases he
    have := ih (hs.step h1) h2
    rw [inserted_cons, ← List.append_assoc]
    exact this

theorem Spec.After.ok {os : List (AnyOp κ ν)} {h : BStore κ ν} {vars : Nat → BMap} (ha : After cmp os h vars) :
    AnyOk (Entry cmp (inserted os)) (h, vars) := by
  obtain ⟨rs, ha⟩ := ha
  simpa using AnyOk.init.run (l := []) ha

/-- An inserted entry with an equal key. -/
theorem Spec.Entry.equal (hc : LawfulCmp cmp) {l : List (κ × ν)} {k : κ} {v : ν} (he : Entry cmp l k v) :
    ∃ k', (k', v) ∈ l ∧ cmp k' k = .eq := by
  obtain ⟨_, k', h1, h2⟩ := he
  refine ⟨k', h1, ?_⟩
  rcases h2 with rfl | h2
  · exact hc.refl k'
  · exact h2

theorem cmp_eq_trans (hc : LawfulCmp cmp) {a b c : κ} (h1 : cmp a b = .eq) (h2 : cmp b c = .eq) : cmp a c = .eq := by
  have h3 := hc.trans a b c (by rw [h1]; decide) (by rw [h2]; decide)
  have h4 := hc.trans c b a (by rw [(hc.eq_comm _ _).1 h2]; decide) (by rw [(hc.eq_comm _ _).1 h1]; decide)
  cases h : cmp a c with
  | eq => rfl
  | gt => exact absurd h h3
  | lt => exact absurd ((hc.lt_iff _ _).1 h) h4

/-- Eleven keys, `b := a`, then Inserts through both variables that split the same node twice. -/
def anyExample : List (AnyOp Nat Nat) :=
  ((List.range' 1 11).map fun i => .call 0 (.insert i (10 * i))) ++
    [.assign 1 0, .call 1 (.insert 12 120), .call 0 (.insert 13 130), .call 1 (.insert 4 44), .call 2 (.insert 7 70)]

/-- C147: whatever was inserted into, removed from, cleared and assigned among maps, in whatever order, Get and
ContainsKey return, and they agree.  No law of Cmp is needed. -/
theorem C147_lookup {os : List (AnyOp κ ν)} {h : BStore κ ν} {vars : Nat → BMap} (ha : After cmp os h vars) (x : Nat)
    (key : κ) : ∃ r, (vars x).get cmp h key = .ok r ∧ (vars x).containsKey cmp h key = .ok r.isSome := by
  obtain ⟨r, h1, h2, _⟩ := BMap.get_total (cmp := cmp) ha.ok.heap (ha.ok.roots x) key
  exact ⟨r, h1, h2⟩
theorem anyExample_after : ∃ h vars, After compare anyExample h vars := by
  have h : (runGo (AnyOp.step compare) anyExample BVars.init).isOk = true := by decide +kernel
  revert h
  cases h : runGo (AnyOp.step compare) anyExample BVars.init with
  | error e => intro h; cases h
  | ok r => exact fun _ => ⟨r.2.1, r.2.2, r.1, h⟩
example : ∃ h vars, After compare anyExample h vars ∧ ∀ x key, ∃ r, (vars x).get compare h key = .ok r := by
  obtain ⟨h, vars, ha⟩ := anyExample_after
  exact ⟨h, vars, ha, fun x key => ⟨_, (C147_lookup ha x key).choose_spec.1⟩⟩

/-- C147: a value that Get returns was inserted for an equal key. -/
theorem C147_get (hc : LawfulCmp cmp) {os : List (AnyOp κ ν)} {h : BStore κ ν} {vars : Nat → BMap}
    (ha : After cmp os h vars) (x : Nat) {key : κ} {v : ν} (hg : (vars x).get cmp h key = .ok (Opt.some v)) :
    ∃ k, (k, v) ∈ inserted os ∧ cmp k key = .eq := by
  obtain ⟨r, h1, _, h3⟩ := BMap.get_total (cmp := cmp) ha.ok.heap (ha.ok.roots x) key
  rw [hg] at h1
  cases h1
  obtain ⟨k, hk, he⟩ := h3 v rfl
  obtain ⟨k', h4, h5⟩ := hk.equal hc
  exact ⟨k', h4, cmp_eq_trans hc h5 ((hc.eq_comm _ _).1 he)⟩
example : (do
    let (_, (h, vars)) ← runGo (AnyOp.step compare) anyExample BVars.init
    let a ← (vars 0).get compare h 4
    let b ← (vars 1).get compare h 4
    let c ← (vars 0).get compare h 12
    .ok (a.value, b.value, c.value)) = (.ok (some 44, some 44, none) : Go _) := by decide +kernel

/-- C147: IntoIter, Keys and Values return and come to an end; they give keys that were inserted, values that were
inserted, and IntoIter gives with a key only values inserted for it or for an equal key.  No law of Cmp is needed. -/
theorem C147_iter (g : Growth) {os : List (AnyOp κ ν)} {h : BStore κ ν} {vars : Nat → BMap} (ha : After cmp os h vars)
    (x : Nat) :
    (∃ it, ∃ l : List (Pair κ ν), (vars x).intoIter g h = .ok it ∧ (∀ n, it.nexts n = .ok ((List.range n).map fun i => l[i]?)) ∧
      ∀ p ∈ l, (∃ v, (p.key, v) ∈ inserted os) ∧
        ∃ k, (k, p.value) ∈ inserted os ∧ (k = p.key ∨ cmp k p.key = .eq)) ∧
    (∃ it, ∃ l : List κ, (vars x).keys g h = .ok it ∧ (∀ n, it.nexts n = .ok ((List.range n).map fun i => l[i]?)) ∧
      ∀ k ∈ l, ∃ v, (k, v) ∈ inserted os) ∧
    (∃ it, ∃ l : List ν, (vars x).values g h = .ok it ∧ (∀ n, it.nexts n = .ok ((List.range n).map fun i => l[i]?)) ∧
      ∀ v ∈ l, ∃ k, (k, v) ∈ inserted os) := by
  obtain ⟨⟨w1, e1, q1⟩, ⟨w2, e2, q2⟩, ⟨w3, e3, q3⟩⟩ := BMap.iters_total ha.ok.heap (ha.ok.roots x) g
  refine ⟨⟨_, w1.data, e1, C53_vec_iter_next w1, fun p hp => q1 p hp⟩,
    ⟨_, w2.data, e2, C53_vec_iter_next w2, fun k hk => ?_⟩, ⟨_, w3.data, e3, C53_vec_iter_next w3, fun v hv => ?_⟩⟩
  · obtain ⟨v, h1, _⟩ := q2 k hk
    exact h1
  · obtain ⟨k, _, k', h2, _⟩ := q3 v hv
    exact ⟨k', h2⟩
example : (do
    let (_, (h, vars)) ← runGo (AnyOp.step compare) anyExample BVars.init
    let it ← (vars 1).keys doubling h
    it.nexts 13) = (.ok ([1, 2, 3, 4, 5, 6, 7, 8, 9, 10, 13, 11].map some ++ [none]) : Go _) := by decide +kernel
example : (do
    let (_, (h, vars)) ← runGo (AnyOp.step compare) anyExample BVars.init
    let it ← (vars 1).intoIter doubling h
    let ps ← it.nexts 14
    .ok (ps.map fun (p : Option (Pair Nat Nat)) => p.map Pair.value)) =
  (.ok ([10, 20, 30, 44, 50, 60, 70, 80, 90, 100, 130, 110, 120].map some ++ [none]) : Go _) := by decide +kernel

/-- C147: the value that Insert replaces was inserted for an equal key. -/
theorem C147_insert (hc : LawfulCmp cmp) {os : List (AnyOp κ ν)} {h h' : BStore κ ν} {vars : Nat → BMap}
    (ha : After cmp os h vars) (x : Nat) {key : κ} {value old : ν} {m' : BMap}
    (hi : (vars x).insert cmp h key value = .ok (h', m', Opt.some old)) :
    ∃ k, (k, old) ∈ inserted os ∧ cmp k key = .eq := by
  obtain ⟨k, hk, he⟩ := BMap.insert_old ha.ok.heap hi rfl
  obtain ⟨k', h4, h5⟩ := hk.equal hc
  exact ⟨k', h4, cmp_eq_trans hc h5 ((hc.eq_comm _ _).1 he)⟩
example : (do
    let (_, (h, vars)) ← runGo (AnyOp.step compare) anyExample BVars.init
    let (_, _, r) ← (vars 0).insert compare h 4 45
    .ok r.value) = (.ok (some 44) : Go _) := by decide +kernel

/-- C147: the value that Remove returns was inserted, though maybe for another key (`C74_remove_fails`). -/
theorem C147_remove {os : List (AnyOp κ ν)} {h h' : BStore κ ν} {vars : Nat → BMap} (ha : After cmp os h vars) (x : Nat)
    {key : κ} {v : ν} {m' : BMap} (hi : (vars x).remove cmp h key = .ok (h', m', Opt.some v)) :
    ∃ k, (k, v) ∈ inserted os := by
  obtain ⟨_, _, h3⟩ := BMap.remove_keeps ha.ok.heap (ha.ok.roots x) hi
  obtain ⟨k, _, k', h2, _⟩ := h3 v rfl
  exact ⟨k', h2⟩
example : (do
    let (_, (h, vars)) ← runGo (AnyOp.step compare) ([(5, 50), (3, 30), (8, 80)].map fun e => .call 0 (.insert e.1 e.2))
      BVars.init
    let (_, _, r) ← (vars 0).remove compare h 3
    .ok r.value) = (.ok (some 50) : Go _) := by decide +kernel

/-! ### Sets -/

/-- A call on the set variable `x`; the last three are `z = x.Intersection(y)` and so on. -/
inductive AnySetOp (κ : Type) where
  | insert (x : Nat) (k : κ) | remove (x : Nat) (k : κ) | clear (x : Nat) | assign (x y : Nat)
  | intersection (z x y : Nat) | union (z x y : Nat) | symmetricDifference (z x y : Nat)

/-- The heap and the variables. -/
abbrev SVars (κ : Type) := BSet.Store κ × (Nat → BSet)
/-- Variables, all of them BTreeSetNew. -/
def SVars.init : SVars κ := ([], fun _ => BSet.new)

/-- The result of a call that makes a set; the loops of these calls always end (`BSet.drain_iter`), so that the case
`none` does not occur. -/
def SVars.store (z : Nat) (vars : Nat → BSet) : Except Panic (Option BSet) × BSet.Store κ → Go (SVars κ)
  | (.ok (some s), h) => .ok (h, fun w => if w = z then s else vars w)
  | (.ok none, _) => .error .stackOverflow
  | (.error e, _) => .error e

/-- One step of a program with sets. -/
def AnySetOp.step (cmp : κ → κ → Ordering) (g : Growth) : AnySetOp κ → SVars κ → Go (SVars κ × Unit)
  | .insert x k, (h, vars) => do
    let (h, s, _) ← (vars x).insert cmp h k
    .ok ((h, fun w => if w = x then s else vars w), ())
  | .remove x k, (h, vars) => do
    let (h, s, _) ← (vars x).remove cmp h k
    .ok ((h, fun w => if w = x then s else vars w), ())
  | .clear x, (h, vars) => .ok ((h, fun w => if w = x then (vars x).clear else vars w), ())
  | .assign x y, (h, vars) => .ok ((h, fun w => if w = x then vars y else vars w), ())
  | .intersection z x y, (h, vars) => do
    let s ← SVars.store z vars ((vars x).intersection cmp g (vars y) h)
    .ok (s, ())
  | .union z x y, (h, vars) => do
    let s ← SVars.store z vars ((vars x).union cmp g (vars y) h)
    .ok (s, ())
  | .symmetricDifference z x y, (h, vars) => do
    let s ← SVars.store z vars ((vars x).symmetricDifference cmp g (vars y) h)
    .ok (s, ())

/-- The elements given to Insert, on any variable. -/
def Spec.insertedKeys (os : List (AnySetOp κ)) : List κ :=
  os.filterMap fun
    | .insert _ k => some k
    | _ => none

/-- The state after the calls `os`, all of which returned. -/
def Spec.AfterSets (cmp : κ → κ → Ordering) (g : Growth) (os : List (AnySetOp κ)) (h : BSet.Store κ)
    (vars : Nat → BSet) : Prop :=
  ∃ rs, runGo (AnySetOp.step cmp g) os SVars.init = .ok (rs, (h, vars))

/-- The heap and a set made during a call. -/
def SetOk (l : List κ) (h0 : BSet.Store κ) (h : BSet.Store κ) (s : BSet) : Prop :=
  Keeps (fun k _ => k ∈ l) h0 h ∧ RootIn h s.treemap

theorem SetOk.insert {l : List κ} {h0 h h' : BSet.Store κ} {s s' : BSet} {b : Bool} (hs : SetOk l h0 h s) {k : κ}
    (hk : k ∈ l) (he : s.insert cmp h k = .ok (h', s', b)) : SetOk l h0 h' s' := by
  unfold BSet.insert at he
  obtain ⟨⟨h1, m1, r1⟩, h2, he⟩ := bind_ok_inv he
  cases he
  obtain ⟨k1, hr⟩ := BMap.insert_keeps hs.1.1 hs.2 hk (fun k' v' h _ => h) h2
  exact ⟨Keeps.trans hs.1 k1, hr⟩

theorem SetOk.insertE {l : List κ} {h0 h h' : BSet.Store κ} {s s' : BSet} (hs : SetOk l h0 h s) {k : κ}
    (hk : k ∈ l) (he : s.insertE cmp k h = (.ok s', h')) : SetOk l h0 h' s' := by
  unfold BSet.insertE at he
  cases hi : s.insert cmp h k with
  | error e => rw [hi] at he; cases he
  | ok r =>
    obtain ⟨h1, s1, b⟩ := r
    rw [hi] at he
    cases he
    exact hs.insert hk hi

/-- A fold that keeps an invariant. -/
theorem foldE_keeps {σ α β : Type} {I : σ → β → Prop} {f : β → α → Eff σ β} : ∀ (xs : List α) {b b' : β} {s s' : σ},
    (∀ a ∈ xs, ∀ b b' s s', I s b → f b a s = (.ok b', s') → I s' b') → I s b → foldE f b xs s = (.ok b', s') → I s' b' := by
  intro xs
  induction xs with
  | nil => intro b b' s s' _ hI he; cases he; exact hI
  | cons a xs ih =>
    intro b b' s s' hf hI he
    simp only [foldE, Eff.bind_run] at he
    cases h1 : f b a s with
    | mk r s1 =>
      rw [h1] at he
      cases r with
      | error e => cases he
      | ok b1 => exact ih (fun a ha => hf a (by simp [ha])) (hf a (by simp) _ _ _ _ hI h1) he

theorem BSet.intoIter_total {h : BSet.Store κ} {s : BSet} {P : κ → Unit → Prop} (ho : HeapOk P h)
    (hr : RootIn h s.treemap) (g : Growth) :
    (s.treemap.root = none ∧ s.intoIter g h = .error .nilDeref) ∨
      ∃ w, s.intoIter g h = .ok ⟨w, 0⟩ ∧ ∀ k ∈ w.data, P k () := by
  obtain ⟨⟨root, len⟩⟩ := s
  unfold BSet.intoIter
  cases root with
  | none => exact .inl ⟨rfl, rfl⟩
  | some root =>
    have hlt := hr root rfl
    obtain ⟨d, hd⟩ : ∃ d, h.length + 1 = d + 2 := ⟨h.length - 1, by omega⟩
    obtain ⟨_, ⟨w2, e2, q2⟩, _⟩ := vecs_total ho g d hlt
    refine .inr ⟨w2, by simp [addr, hd, e2], fun k hk => ?_⟩
    obtain ⟨v, hv⟩ := q2 k hk
    exact hv

/-- The loops of Intersection, Union and SymmetricDifference: the elements of `self` that `test` lets through are
added to `newSet`. -/
theorem SetOk.loop {l : List κ} {h0 h h' : BSet.Store κ} {self : BSet} (g : Growth)
    {step : BSet → κ → Eff (BSet.Store κ) BSet} {s : BSet} {r : Option BSet} (hs : SetOk l h0 h s) (hr : RootIn h0 self.treemap)
    (hstep : ∀ k ∈ l, ∀ b b' s s', SetOk l h0 s b → step b k s = (.ok b', s') → SetOk l h0 s' b')
    (he : (do
      let iter ← self.intoIterE g
      VecIter.drain step iter.rounds iter s) h = (.ok r, h')) : ∃ s', r = some s' ∧ SetOk l h0 h' s' := by
  rw [Eff.bind_run] at he
  unfold BSet.intoIterE at he
  rcases BSet.intoIter_total hs.1.1 (hr.ext hs.1.2) g with ⟨_, e⟩ | ⟨w, e, q⟩
  · rw [e] at he; cases he
  · rw [e] at he
    simp only at he
    rw [BSet.drain_iter step (xs := w.data) rfl, Eff.bind_run] at he
    cases hf : foldE step s w.data h with
    | mk r1 s1 =>
      rw [hf] at he
      cases r1 with
      | error e => cases he
      | ok b1 =>
        cases he
        exact ⟨b1, rfl, foldE_keeps (I := SetOk l h0) w.data (fun k hk => hstep k (q k hk)) hs hf⟩

/-- A step that adds the element if `other.Contains` answers so. -/
theorem SetOk.test {l : List κ} {h0 : BSet.Store κ} (other : BSet) (neg : Bool) : ∀ k ∈ l, ∀ (b b' : BSet) (s s' : BSet.Store κ),
    SetOk l h0 s b → (do
      let c ← other.containsE cmp k
      if (c != neg) = true then b.insertE cmp k else pure b : Eff (BSet.Store κ) BSet) s = (.ok b', s') → SetOk l h0 s' b' := by
  intro k hk b b' s s' hs he
  rw [Eff.bind_run] at he
  unfold BSet.containsE at he
  cases hc : other.contains cmp s k with
  | error e => rw [hc] at he; cases he
  | ok c =>
    rw [hc] at he
    simp only at he
    split at he
    · exact hs.insertE hk he
    · cases he; exact hs

theorem SetOk.fresh {l : List κ} {h : BSet.Store κ} (ho : HeapOk (fun k _ => k ∈ l) h) : SetOk l h h BSet.new :=
  ⟨Keeps.rfl' ho, fun r hr => by cases hr⟩

theorem SetOk.intersection {l : List κ} {h h' : BSet.Store κ} {self other : BSet} (g : Growth) {r : Option BSet}
    (ho : HeapOk (fun k _ => k ∈ l) h) (hr : RootIn h self.treemap)
    (he : self.intersection cmp g other h = (.ok r, h')) : ∃ s', r = some s' ∧ SetOk l h h' s' :=
  (SetOk.fresh ho).loop g hr (fun k hk b b' s s' hs hx => SetOk.test (cmp := cmp) other false k hk b b' s s' hs (by
    simpa using hx)) he

theorem SetOk.union {l : List κ} {h h' : BSet.Store κ} {self other : BSet} (g : Growth) {r : Option BSet}
    (ho : HeapOk (fun k _ => k ∈ l) h) (hr : RootIn h self.treemap) (hr2 : RootIn h other.treemap)
    (he : self.union cmp g other h = (.ok r, h')) : ∃ s', r = some s' ∧ SetOk l h h' s' := by
  unfold BSet.union at he
  have e : ∀ (f : Option BSet → Eff (BSet.Store κ) (Option BSet)), (do
      let iter ← self.intoIterE g
      let r ← VecIter.drain (fun (newSet : BSet) v => newSet.insertE cmp v) iter.rounds iter BSet.new
      f r) = (do
      let r ← (do
        let iter ← self.intoIterE g
        VecIter.drain (fun (newSet : BSet) v => newSet.insertE cmp v) iter.rounds iter BSet.new)
      f r) := by
    intro f
    funext s
    simp only [Eff.bind_run]
    split <;> simp_all
  rw [e, Eff.bind_run] at he
  cases h1 : (do
        let iter ← self.intoIterE g
        VecIter.drain (fun (newSet : BSet) v => newSet.insertE cmp v) iter.rounds iter BSet.new : Eff _ _) h with
  | mk r1 s1 =>
    rw [h1] at he
    cases r1 with
    | error e => cases he
    | ok r1 =>
      obtain ⟨n1, rfl, hs1⟩ := (SetOk.fresh ho).loop g hr (fun k hk b b' s s' hs hx => hs.insertE hk hx) h1
      exact hs1.loop g hr2 (fun k hk b b' s s' hs hx => hs.insertE hk hx) he

theorem SetOk.symmetricDifference {l : List κ} {h h' : BSet.Store κ} {self other : BSet} (g : Growth) {r : Option BSet}
    (ho : HeapOk (fun k _ => k ∈ l) h) (hr : RootIn h self.treemap) (hr2 : RootIn h other.treemap)
    (he : self.symmetricDifference cmp g other h = (.ok r, h')) : ∃ s', r = some s' ∧ SetOk l h h' s' := by
  unfold BSet.symmetricDifference at he
  have e : ∀ (f : Option BSet → Eff (BSet.Store κ) (Option BSet)), (do
      let iter ← self.intoIterE g
      let r ← VecIter.drain (fun (newSet : BSet) v => do
        let c ← other.containsE cmp v
        if !c then newSet.insertE cmp v else pure newSet) iter.rounds iter BSet.new
      f r) = (do
      let r ← (do
        let iter ← self.intoIterE g
        VecIter.drain (fun (newSet : BSet) v => do
          let c ← other.containsE cmp v
          if !c then newSet.insertE cmp v else pure newSet) iter.rounds iter BSet.new)
      f r) := by
    intro f
    funext s
    simp only [Eff.bind_run]
    split <;> simp_all
  rw [e, Eff.bind_run] at he
  cases h1 : (do
        let iter ← self.intoIterE g
        VecIter.drain (fun (newSet : BSet) v => do
          let c ← other.containsE cmp v
          if !c then newSet.insertE cmp v else pure newSet) iter.rounds iter BSet.new : Eff _ _) h with
  | mk r1 s1 =>
    rw [h1] at he
    cases r1 with
    | error e => cases he
    | ok r1 =>
      obtain ⟨n1, rfl, hs1⟩ := (SetOk.fresh ho).loop g hr (fun k hk b b' s s' hs hx =>
        SetOk.test (cmp := cmp) other true k hk b b' s s' hs (by simpa using hx)) h1
      exact hs1.loop g hr2 (fun k hk b b' s s' hs hx =>
        SetOk.test (cmp := cmp) self true k hk b b' s s' hs (by simpa using hx)) he

/-- The state after any history of sets. -/
structure AnySetOk (l : List κ) (s : SVars κ) : Prop where
  heap : HeapOk (fun k _ => k ∈ l) s.1
  roots : ∀ x, RootIn s.1 (s.2 x).treemap

/-- The element of an operation. -/
def Spec.givenKey : AnySetOp κ → List κ
  | .insert _ k => [k]
  | _ => []

theorem AnySetOk.step (g : Growth) {l : List κ} {s s' : SVars κ} {o : AnySetOp κ} {r : Unit} (hs : AnySetOk l s)
    (he : AnySetOp.step cmp g o s = .ok (s', r)) : AnySetOk (l ++ givenKey o) s' := by
  obtain ⟨h, vars⟩ := s
  have hup : ∀ {l' : List κ}, HeapOk (fun k _ => k ∈ l ++ l') h := fun {l'} =>
    hs.heap.imp fun k v hk => by simp [hk]
  have hext : ∀ {h1 : BSet.Store κ} {m : BSet} {x : Nat}, Ext h h1 → RootIn h1 m.treemap →
      ∀ y, RootIn h1 (if y = x then m else vars y).treemap := by
    intro h1 m x he hm y
    split
    · exact hm
    · exact (hs.roots y).ext he
  have hmake : ∀ {l' : List κ} {z : Nat} {f : Eff (BSet.Store κ) (Option BSet)} {t : SVars κ},
      (∀ r h', f h = (.ok r, h') → ∃ s', r = some s' ∧ SetOk (l ++ l') h h' s') →
      SVars.store z vars (f h) = .ok t → AnySetOk (l ++ l') t := by
    intro l' z f t hf ht
    cases hfh : f h with
    | mk r h' =>
      rw [hfh] at ht
      cases r with
      | error e => cases ht
      | ok r =>
        obtain ⟨s1, rfl, hok⟩ := hf r h' hfh
        cases ht
        exact ⟨hok.1.1, hext hok.1.2 hok.2⟩
  cases o with
  | insert x k =>
    simp only [AnySetOp.step] at he
    obtain ⟨⟨h1, s1, b⟩, h2, he⟩ := bind_ok_inv he
    cases he
    have hok := SetOk.insert (l := l ++ givenKey (.insert x k)) (h0 := h) ⟨Keeps.rfl' hup, hs.roots x⟩ (by simp [givenKey]) h2
    exact ⟨hok.1.1, hext hok.1.2 hok.2⟩
  | remove x k =>
    simp only [AnySetOp.step] at he
    obtain ⟨⟨h1, s1, b⟩, h2, he⟩ := bind_ok_inv he
    cases he
    unfold BSet.remove at h2
    obtain ⟨⟨h3, m3, r3⟩, h4, h2⟩ := bind_ok_inv h2
    cases h2
    obtain ⟨hk, hr, _⟩ := BMap.remove_keeps (P := fun k' _ => k' ∈ l ++ givenKey (.remove x k)) hup (hs.roots x) h4
    exact ⟨hk.1, hext hk.2 hr⟩
  | clear x => cases he; exact ⟨hup, hext (Ext.rfl' h) (fun r hr => by cases hr)⟩
  | assign x y => cases he; exact ⟨hup, hext (Ext.rfl' h) (hs.roots y)⟩
  | intersection z x y =>
    obtain ⟨t, ht, he⟩ := bind_ok_inv he
    cases he
    exact hmake (fun r h' hx => SetOk.intersection g hup (hs.roots x) hx) ht
  | union z x y =>
    obtain ⟨t, ht, he⟩ := bind_ok_inv he
    cases he
    exact hmake (fun r h' hx => SetOk.union g hup (hs.roots x) (hs.roots y) hx) ht
  | symmetricDifference z x y =>
    obtain ⟨t, ht, he⟩ := bind_ok_inv he
    cases he
    exact hmake (fun r h' hx => SetOk.symmetricDifference g hup (hs.roots x) (hs.roots y) hx) ht

theorem AnySetOk.run (g : Growth) {os : List (AnySetOp κ)} : ∀ {l : List κ} {s s' : SVars κ} {rs : List Unit},
    AnySetOk l s → runGo (AnySetOp.step cmp g) os s = .ok (rs, s') → AnySetOk (l ++ insertedKeys os) s' := by
  induction os with
  | nil => intro l s s' rs hs he; cases he; simpa [insertedKeys] using hs
  | cons o os ih =>
    intro l s s' rs hs he
    unfold runGo at he
    obtain ⟨⟨s1, r1⟩, h1, he⟩ := bind_ok_inv he
    obtain ⟨⟨rs2, s2⟩, h2, he⟩ := bind_ok_inv he
    cases he
    have := ih (hs.step g h1) h2
    have hk : insertedKeys (o :: os) = givenKey o ++ insertedKeys os := by
      unfold insertedKeys
      rw [List.filterMap_cons]
      cases o <;> rfl
    rw [hk, ← List.append_assoc]
    exact this

theorem Spec.AfterSets.ok {g : Growth} {os : List (AnySetOp κ)} {h : BSet.Store κ} {vars : Nat → BSet}
    (ha : AfterSets cmp g os h vars) : AnySetOk (insertedKeys os) (h, vars) := by
  obtain ⟨rs, ha⟩ := ha
  have h0 : AnySetOk ([] : List κ) (SVars.init : SVars κ) :=
    ⟨fun a n hn => by simp [SVars.init] at hn, fun x r hr => by simp [SVars.init, BSet.new, BMap.new] at hr⟩
  simpa using h0.run g ha

/-- C147, for sets: after any history of Insert, Remove, Clear, Intersection, Union, SymmetricDifference and
assignments Contains returns and answers true only for elements equal to inserted ones; IntoIter returns (or
dereferences nil, see `C76_empty_fails`) and gives inserted elements only. -/
theorem C147_set (g : Growth) {os : List (AnySetOp κ)} {h : BSet.Store κ} {vars : Nat → BSet}
    (ha : AfterSets cmp g os h vars) (x : Nat) :
    (∀ k, ∃ b, (vars x).contains cmp h k = .ok b ∧ (b = true → ∃ k' ∈ insertedKeys os, cmp k k' = .eq)) ∧
    (((vars x).intoIter g h = .error .nilDeref ∧ ∀ k, (vars x).contains cmp h k = .ok false) ∨
      ∃ it, ∃ l : List κ, (vars x).intoIter g h = .ok it ∧ (∀ n, it.nexts n = .ok ((List.range n).map fun i => l[i]?)) ∧
        ∀ k ∈ l, k ∈ insertedKeys os) := by
  refine ⟨?_, ?_⟩
  · intro k
    obtain ⟨r, _, h2, h3⟩ := BMap.get_total (cmp := cmp) ha.ok.heap (ha.ok.roots x) k
    refine ⟨r.isSome, h2, ?_⟩
    intro hr
    cases hv : r.value with
    | none => rw [Opt.isSome, hv] at hr; cases hr
    | some u =>
      obtain ⟨k', h4, h5⟩ := h3 u hv
      exact ⟨k', h4, h5⟩
  · rcases BSet.intoIter_total ha.ok.heap (ha.ok.roots x) g with ⟨e0, e⟩ | ⟨w, e, q⟩
    · simp only at e0 e
      exact .inl ⟨e, fun k => by simp [BSet.contains, BMap.containsKey, e0]⟩
    · exact .inr ⟨_, w.data, e, C53_vec_iter_next w, q⟩
example : (do
    let (_, (h, vars)) ← runGo (AnySetOp.step compare doubling)
      [.insert 0 3, .insert 0 5, .insert 1 5, .insert 1 9, .union 2 0 1, .symmetricDifference 3 0 1, .intersection 4 0 1,
        .assign 5 2, .insert 5 7, .remove 2 1] SVars.init
    let a ← (vars 2).contains compare h 7
    let b ← (vars 5).contains compare h 4
    let it ← (vars 3).intoIter doubling h
    let l ← it.nexts 3
    .ok (a, b, l)) = (.ok (true, false, [some 3, some 9, none]) : Go _) := by decide +kernel

end Gost
