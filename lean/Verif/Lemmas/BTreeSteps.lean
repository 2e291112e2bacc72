import Verif.Model.BTreeSteps
import Verif.Lemmas.BTreeAny
/-
What every assignment of btree_map.go keeps, so that it also holds when a call panics half-way.
-/
namespace Gost.Steps
open BTree Unwind Spec
variable {κ ν σ β γ : Type} {P : κ → ν → Prop}

/-- A node in shape. -/
def OkAt (P : κ → ν → Prop) (h : BStore κ ν) (a : Nat) : Prop := ∃ n, h[a]? = some n ∧ NodeOk P h n
/-- An internal node in shape. -/
def Inner (P : κ → ν → Prop) (h : BStore κ ν) (a : Nat) : Prop := ∃ n, h[a]? = some n ∧ n.leaf = false ∧ NodeOk P h n
/-- All leaves are in shape (an internal node may be a root that was given up). -/
def Inv (P : κ → ν → Prop) (h : BStore κ ν) : Prop := ∀ (a : Nat) n, h[a]? = some n → n.leaf = true → NodeOk P h n
/-- Nodes stay, stay leaves or internal, and stay in shape. -/
def Grow (P : κ → ν → Prop) (h h' : BStore κ ν) : Prop :=
  ∀ (a : Nat) n, h[a]? = some n → ∃ n', h'[a]? = some n' ∧ n'.leaf = n.leaf ∧ (NodeOk P h n → NodeOk P h' n')

theorem Grow.rfl' (h : BStore κ ν) : Grow P h h := fun _ n hn => ⟨n, hn, rfl, id⟩
theorem Grow.trans {h1 h2 h3 : BStore κ ν} (a : Grow P h1 h2) (b : Grow P h2 h3) : Grow P h1 h3 := by
  intro r n hn
  obtain ⟨n', h', e, k⟩ := a r n hn
  obtain ⟨n2, h2, e2, k2⟩ := b r n' h'
  exact ⟨n2, h2, e2.trans e, k2 ∘ k⟩
theorem Grow.ext {h h' : BStore κ ν} (g : Grow P h h') : Ext h h' := by
  intro r n hn
  obtain ⟨n', h', e, _⟩ := g r n hn
  exact ⟨n', h', e⟩
theorem OkAt.grow {h h' : BStore κ ν} {a : Nat} (o : OkAt P h a) (g : Grow P h h') : OkAt P h' a := by
  obtain ⟨n, hn, hk⟩ := o
  obtain ⟨n', hn', _, k⟩ := g a n hn
  exact ⟨n', hn', k hk⟩
theorem Inner.grow {h h' : BStore κ ν} {a : Nat} (o : Inner P h a) (g : Grow P h h') : Inner P h' a := by
  obtain ⟨n, hn, hl, hk⟩ := o
  obtain ⟨n', hn', e, k⟩ := g a n hn
  exact ⟨n', hn', e.trans hl, k hk⟩
theorem Inner.ok {h : BStore κ ν} {a : Nat} (o : Inner P h a) : OkAt P h a := by
  obtain ⟨n, hn, _, hk⟩ := o
  exact ⟨n, hn, hk⟩
theorem Inv.leafy {h : BStore κ ν} {a : Nat} (hi : Inv P h) (hl : Leafy h a) : OkAt P h a := by
  obtain ⟨n, hn, hl⟩ := hl
  exact ⟨n, hn, hi a n hn hl⟩

theorem NodeOk.ext {h h' : BStore κ ν} {n : BNode κ ν} (hn : NodeOk P h n) (e : Ext h h') : NodeOk P h' n :=
  ⟨hn.slots, hn.clen, fun hf => e.kids (hn.kids hf)⟩

/-- A node is replaced by one in shape. -/
theorem Inv.set {h : BStore κ ν} (hi : Inv P h) {a : Nat} {node node' : BNode κ ν} (ha : h[a]? = some node)
    (hl : node'.leaf = node.leaf) (hn : NodeOk P h node') : Inv P (h.set a node') ∧ Grow P h (h.set a node') := by
  have hla := (List.getElem?_eq_some_iff.1 ha).1
  have he : Ext h (h.set a node') := by
    intro r n hr
    by_cases hra : a = r
    · subst hra
      rw [ha] at hr; cases hr
      exact ⟨node', List.getElem?_set_self hla, hl⟩
    · exact ⟨n, by rw [List.getElem?_set_ne hra]; exact hr, rfl⟩
  constructor
  · intro r n hr hrl
    by_cases hra : a = r
    · subst hra
      rw [List.getElem?_set_self hla] at hr; cases hr
      exact NodeOk.ext hn he
    · rw [List.getElem?_set_ne hra] at hr
      exact NodeOk.ext (hi r n hr hrl) he
  · intro r n hr
    by_cases hra : a = r
    · subst hra
      rw [ha] at hr; cases hr
      exact ⟨node', List.getElem?_set_self hla, hl, fun _ => NodeOk.ext hn he⟩
    · exact ⟨n, by rw [List.getElem?_set_ne hra]; exact hr, rfl, fun k => NodeOk.ext k he⟩

/-- A new node; a leaf has to be in shape. -/
theorem Inv.push {h : BStore κ ν} (hi : Inv P h) {node : BNode κ ν} (hn : node.leaf = true → NodeOk P h node) :
    Inv P (h ++ [node]) ∧ Grow P h (h ++ [node]) := by
  have hold : ∀ (r : Nat) n, h[r]? = some n → (h ++ [node])[r]? = some n := by
    intro r n hr
    rw [List.getElem?_append_left (List.getElem?_eq_some_iff.1 hr).1]; exact hr
  have he : Ext h (h ++ [node]) := fun r n hr => ⟨n, hold r n hr, rfl⟩
  refine ⟨?_, fun r n hr => ⟨n, hold r n hr, rfl, fun k => NodeOk.ext k he⟩⟩
  intro r n hr hl
  by_cases hlt : r < h.length
  · rw [List.getElem?_append_left hlt] at hr
    exact NodeOk.ext (hi r n hr hl) he
  · rw [List.getElem?_append_right (by omega)] at hr
    have := List.mem_of_getElem? hr
    simp only [List.mem_singleton] at this
    subst this
    exact NodeOk.ext (hn hl) he

/-! ### Computations that keep the shape, whether they return or panic -/

/-- From the heap `h` in shape: the heap stays in shape, in a panic, too; a result is in Q with its heap. -/
def Safe (P : κ → ν → Prop) (x : Eff (BStore κ ν × σ) β) (Q : β → BStore κ ν → Prop) (h : BStore κ ν) : Prop :=
  Inv P h → ∀ s, (Inv P (x (h, s)).2.1 ∧ Grow P h (x (h, s)).2.1) ∧ ∀ v, (x (h, s)).1 = .ok v → Q v (x (h, s)).2.1

/-- Any result. -/
abbrev Any {β α : Type} : β → α → Prop := fun _ _ => True

variable {Q : β → BStore κ ν → Prop} {h : BStore κ ν}

theorem Safe.inv {x : Eff (BStore κ ν × σ) β} (hx : Inv P h → Safe P x Q h) : Safe P x Q h := fun hi => hx hi hi
theorem Safe.pure {b : β} (hb : Q b h) : Safe P (pure b : Eff (BStore κ ν × σ) β) Q h :=
  fun hi _ => ⟨⟨hi, Grow.rfl' h⟩, fun v hv => by cases hv; exact hb⟩
theorem Safe.panic {e : Panic} : Safe P (Eff.panic e : Eff (BStore κ ν × σ) β) Q h :=
  fun hi _ => ⟨⟨hi, Grow.rfl' h⟩, fun v hv => by cases hv⟩
theorem Safe.conseq {x : Eff (BStore κ ν × σ) β} {Q' : β → BStore κ ν → Prop} (hx : Safe P x Q' h)
    (hq : ∀ v h', Grow P h h' → Q' v h' → Q v h') : Safe P x Q h := fun hi s =>
  ⟨(hx hi s).1, fun v hv => hq v _ (hx hi s).1.2 ((hx hi s).2 v hv)⟩
theorem Safe.bind {M : γ → BStore κ ν → Prop} {x : Eff (BStore κ ν × σ) γ} {f : γ → Eff (BStore κ ν × σ) β}
    (hx : Safe P x M h) (hf : ∀ v h', Grow P h h' → M v h' → Safe P (f v) Q h') : Safe P (x >>= f) Q h := by
  intro hi s
  have h1 := hx hi s
  rw [Eff.bind_run]
  rcases hr : x (h, s) with ⟨e | v, h', s'⟩
  · rw [hr] at h1
    exact ⟨h1.1, fun v hv => by cases hv⟩
  · rw [hr] at h1
    have h2 := hf v h' h1.1.2 (h1.2 v rfl) h1.1.1 s'
    exact ⟨⟨h2.1.1, h1.1.2.trans h2.1.2⟩, h2.2⟩
theorem Safe.lift_bind {x : Go γ} {f : γ → Eff (BStore κ ν × σ) β} (hf : ∀ v, x = .ok v → Safe P (f v) Q h) :
    Safe P (Eff.lift x >>= f) Q h := by
  cases x with
  | error e => exact Safe.panic
  | ok v => exact hf v rfl
theorem Safe.get_bind {f : BStore κ ν → Eff (BStore κ ν × σ) β} (hf : Safe P (f h) Q h) :
    Safe P (Unwind.get >>= f) Q h := hf
theorem Safe.call_bind {x : Eff σ γ} {f : γ → Eff (BStore κ ν × σ) β}
    (hf : ∀ v s s', x s = (.ok v, s') → Safe P (f v) Q h) : Safe P (call x >>= f) Q h := by
  intro hi s
  rw [Eff.bind_run]
  unfold call
  rcases hr : x s with ⟨e | v, s'⟩
  · exact ⟨⟨hi, Grow.rfl' h⟩, fun v hv => by cases hv⟩
  · exact hf v s s' hr hi s'

theorem Safe.node_bind {p : Option Nat} {f : BNode κ ν → Eff (BStore κ ν × σ) β}
    (hf : ∀ a n, p = some a → h[a]? = some n → Safe P (f n) Q h) : Safe P (node p >>= f) Q h := by
  unfold node
  rw [Eff.bind_assoc]
  refine Safe.get_bind (Safe.lift_bind fun n hn => ?_)
  cases p with
  | none => cases hn
  | some a => exact hf a n rfl (load_inv hn)
theorem Safe.childAt_bind {a : Nat} {i : Int} {f : Option Nat → Eff (BStore κ ν × σ) β}
    (hf : ∀ n c, h[a]? = some n → getAt n.childs i = .ok c → Safe P (f c) Q h) : Safe P (childAt a i >>= f) Q h := by
  unfold childAt
  rw [Eff.bind_assoc]
  refine Safe.node_bind fun b n hb hn => ?_
  cases hb
  exact Safe.lift_bind fun c hc => hf n c hn hc
theorem Safe.keyAt_bind {a : Nat} {i : Int} {f : Option κ → Eff (BStore κ ν × σ) β}
    (hf : ∀ k, Safe P (f k) Q h) : Safe P (keyAt a i >>= f) Q h := by
  unfold keyAt
  rw [Eff.bind_assoc]
  exact Safe.node_bind fun b n hb hn => Safe.lift_bind fun c hc => hf c
theorem Safe.valueAt_bind {a : Nat} {i : Int} {f : Option ν → Eff (BStore κ ν × σ) β}
    (hf : ∀ n v, h[a]? = some n → getAt n.values i = .ok v → Safe P (f v) Q h) : Safe P (valueAt a i >>= f) Q h := by
  unfold valueAt
  rw [Eff.bind_assoc]
  refine Safe.node_bind fun b n hb hn => ?_
  cases hb
  exact Safe.lift_bind fun c hc => hf n c hn hc

/-! ### Assignments -/

theorem update_safe {a : Nat} {f : BNode κ ν → BNode κ ν}
    (hf : ∀ n, h[a]? = some n → (f n).leaf = n.leaf ∧ NodeOk P h (f n)) :
    Safe P (update a f : Eff (BStore κ ν × σ) Unit) Any h := by
  refine Safe.get_bind (Safe.lift_bind fun n hn => ?_)
  have hn := load_inv hn
  intro hi s
  exact ⟨hi.set hn (hf n hn).1 (hf n hn).2, fun _ _ => trivial⟩

theorem setN_safe {a : Nat} {n : Int} (ho : OkAt P h a) : Safe P (setN a n : Eff (BStore κ ν × σ) Unit) Any h := by
  obtain ⟨m, hm, hk⟩ := ho
  refine update_safe fun m' hm' => ?_
  rw [hm] at hm'; cases hm'
  exact ⟨rfl, hk.slots, hk.clen, hk.kids⟩

theorem alloc_safe {n : BNode κ ν} (hn : NodeOk P h n) :
    Safe P (alloc n : Eff (BStore κ ν × σ) Nat) (fun a h' => h' = h ++ [n] ∧ ∃ m, h'[a]? = some m ∧ m.leaf = n.leaf ∧ NodeOk P h' m) h := by
  intro hi s
  have hp := hi.push (node := n) fun _ => hn
  refine ⟨hp, fun a ha => ?_⟩
  cases ha
  have he : (h ++ [n])[h.length]? = some n := by simp
  exact ⟨rfl, n, he, rfl, NodeOk.ext hn hp.2.ext⟩

theorem setChild_safe {a : Nat} {i : Int} {c : Option Nat} (ho : OkAt P h a) (hc : ∀ b, c = some b → Leafy h b) :
    Safe P (setChild a i c : Eff (BStore κ ν × σ) Unit) Any h := by
  obtain ⟨m, hm, hk⟩ := ho
  refine Safe.node_bind fun b n hb hn => Safe.lift_bind fun cs hcs => update_safe fun m' hm' => ?_
  cases hb
  rw [hm] at hn hm'; cases hn; cases hm'
  refine ⟨rfl, hk.slots, ?_, fun hf => ((hk.kids hf).setAt hc hcs).1⟩
  obtain ⟨_, _, rfl⟩ := setAt_inv hcs
  simpa using hk.clen

/-- Children go to a node of the same type. -/
theorem copyChild_safe {a b : Nat} {i j : Int} (ho : OkAt P h a) (hb : OkAt P h b)
    (hab : ∀ m n : BNode κ ν, h[a]? = some m → h[b]? = some n → m.leaf = n.leaf) :
    Safe P (copyChild a i b j : Eff (BStore κ ν × σ) Unit) Any h := by
  obtain ⟨m, hm, hk⟩ := ho
  obtain ⟨n, hn, hkn⟩ := hb
  refine Safe.childAt_bind fun n' c hn' hc => ?_
  rw [hn] at hn'; cases hn'
  refine Safe.node_bind fun b n' hb hn' => Safe.lift_bind fun cs hcs => update_safe fun m' hm' => ?_
  cases hb
  rw [hm] at hn' hm'; cases hn'; cases hm'
  refine ⟨rfl, hk.slots, ?_, fun hf => ?_⟩
  · obtain ⟨_, _, rfl⟩ := setAt_inv hcs
    simpa using hk.clen
  · have hf' : n.leaf = false := by rw [← hab m n hm hn]; exact hf
    exact ((hk.kids hf).setAt ((hkn.kids hf').get hc) hcs).1

theorem setKey_run {a : Nat} {i : Int} {k : Option κ} {n : BNode κ ν} (hn : h[a]? = some n) (s : σ) :
    setKey a i k (h, s) = match setAt n.keys i k with
      | .ok ks => (.ok (), (h.set a { n with keys := ks }, s))
      | .error e => (.error e, (h, s)) := by
  simp only [setKey, node, update, Eff.bind_run, Unwind.get, Unwind.put, Eff.lift_run, load_of hn]
  cases setAt n.keys i k <;> simp [load_of hn]
theorem setValue_run {a : Nat} {i : Int} {v : Option ν} {n : BNode κ ν} (hn : h[a]? = some n) (s : σ) :
    setValue a i v (h, s) = match setAt n.values i v with
      | .ok vs => (.ok (), (h.set a { n with values := vs }, s))
      | .error e => (.error e, (h, s)) := by
  simp only [setValue, node, update, Eff.bind_run, Unwind.get, Unwind.put, Eff.lift_run, load_of hn]
  cases setAt n.values i v <;> simp [load_of hn]
theorem keyAt_run {a : Nat} {i : Int} {n : BNode κ ν} (hn : h[a]? = some n) (s : σ) :
    keyAt a i (h, s) = (getAt n.keys i, (h, s)) := by
  simp only [keyAt, node, Eff.bind_run, Unwind.get, Eff.lift_run, load_of hn]
theorem valueAt_run {a : Nat} {i : Int} {n : BNode κ ν} (hn : h[a]? = some n) (s : σ) :
    valueAt a i (h, s) = (getAt n.values i, (h, s)) := by
  simp only [valueAt, node, Eff.bind_run, Unwind.get, Eff.lift_run, load_of hn]

theorem setAt_len {α : Type} {l l' : List α} {γ : Type} {m : List γ} {i : Int} {v : α} (h : setAt l i v = .ok l')
    (hl : l.length = m.length) (w : γ) : setAt m i w = .ok (m.set i.toNat w) := by
  obtain ⟨h0, h1, _⟩ := setAt_inv h
  unfold setAt
  rw [if_neg (by omega), setIndex_lt (by omega)]

/-- Key and value are stored together: there is no panic between the two assignments. -/
theorem setSlot_safe {a : Nat} {i : Int} {k : Option κ} {v : Option ν} {f : Unit → Eff (BStore κ ν × σ) β} (ho : OkAt P h a)
    (hs : Slot P k v) (hf : ∀ h', Grow P h h' → Safe P (f ()) Q h') :
    Safe P (setKey a i k >>= fun _ => setValue a i v >>= f) Q h := by
  obtain ⟨n, hn, hk⟩ := ho
  intro hi s
  have hla := (List.getElem?_eq_some_iff.1 hn).1
  rw [Eff.bind_run, setKey_run hn]
  cases h1 : setAt n.keys i k with
  | error e => exact ⟨⟨hi, Grow.rfl' h⟩, fun v hv => by cases hv⟩
  | ok ks =>
    have h2 : setAt n.values i v = .ok (n.values.set i.toNat v) :=
      setAt_len h1 (by rw [hk.slots.klen, hk.slots.vlen]) v
    simp only
    rw [Eff.bind_run, setValue_run (n := { n with keys := ks }) (List.getElem?_set_self hla), h2]
    simp only [List.set_set]
    have hg := hi.set (node' := { n with keys := ks, values := n.values.set i.toNat v }) hn rfl
      ⟨hk.slots.setAt hs h1 h2, hk.clen, hk.kids⟩
    have h3 := hf _ hg.2 hg.1 s
    exact ⟨⟨h3.1.1, hg.2.trans h3.1.2⟩, h3.2⟩

theorem getAt_len {α γ : Type} {l : List α} {m : List γ} {i : Int} {v : α} (h : getAt l i = .ok v)
    (hl : l.length = m.length) : ∃ w, getAt m i = .ok w := by
  obtain ⟨h0, h1⟩ := getAt_slot h
  have h2 := (List.getElem?_eq_some_iff.1 h1).1
  refine ⟨m[i.toNat]'(by omega), ?_⟩
  unfold getAt
  rw [if_neg (by omega)]
  simp [index, show i.toNat < m.length by omega]

theorem copySlot_safe {a b : Nat} {i j : Int} (ho : OkAt P h a) (hb : OkAt P h b) :
    Safe P (copySlot a i b j : Eff (BStore κ ν × σ) Unit) Any h := by
  obtain ⟨n, hn, hk⟩ := ho
  obtain ⟨m, hm, hkm⟩ := hb
  intro hi s
  have hla := (List.getElem?_eq_some_iff.1 hn).1
  unfold copySlot
  rw [Eff.bind_run, keyAt_run hm]
  cases h1 : getAt m.keys j with
  | error e => exact ⟨⟨hi, Grow.rfl' h⟩, fun _ _ => trivial⟩
  | ok k =>
    simp only
    rw [Eff.bind_run, setKey_run hn]
    cases h2 : setAt n.keys i k with
    | error e => exact ⟨⟨hi, Grow.rfl' h⟩, fun _ _ => trivial⟩
    | ok ks =>
      simp only
      obtain ⟨v, h3⟩ := getAt_len (m := m.values) h1 (by rw [hkm.slots.klen, hkm.slots.vlen])
      have h4 : setAt n.values i v = .ok (n.values.set i.toNat v) :=
        setAt_len h2 (by rw [hk.slots.klen, hk.slots.vlen]) v
      obtain ⟨m', hm', hv'⟩ : ∃ m' : BNode κ ν, (h.set a { n with keys := ks })[b]? = some m' ∧ m'.values = m.values := by
        by_cases hab : a = b
        · subst hab
          rw [hn] at hm; cases hm
          exact ⟨_, List.getElem?_set_self hla, rfl⟩
        · exact ⟨m, by rw [List.getElem?_set_ne hab]; exact hm, rfl⟩
      rw [Eff.bind_run, valueAt_run hm', hv', h3]
      simp only
      rw [setValue_run (n := { n with keys := ks }) (List.getElem?_set_self hla), h4]
      simp only [List.set_set]
      exact ⟨hi.set (node' := { n with keys := ks, values := n.values.set i.toNat v }) hn rfl
        ⟨hk.slots.setAt (hkm.slots.get h1 h3) h2 h4, hk.clen, hk.kids⟩, fun _ _ => trivial⟩

/-! ### Loops -/

theorem up_safe {body : Int → Eff (BStore κ ν × σ) Unit} (n : Nat) : ∀ {h : BStore κ ν} (j : Int),
    (∀ j h', Grow P h h' → Safe P (body j) Any h') → Safe P (up body n j) Any h := by
  induction n with
  | zero => intro h j _; exact Safe.pure trivial
  | succ n ih =>
    intro h j hb
    exact Safe.bind (hb j h (Grow.rfl' h)) fun _ h' g _ => ih _ fun j h2 g2 => hb j h2 (g.trans g2)
theorem down_safe {body : Int → Eff (BStore κ ν × σ) Unit} (n : Nat) : ∀ {h : BStore κ ν} (j : Int),
    (∀ j h', Grow P h h' → Safe P (body j) Any h') → Safe P (down body n j) Any h := by
  induction n with
  | zero => intro h j _; exact Safe.pure trivial
  | succ n ih =>
    intro h j hb
    exact Safe.bind (hb j h (Grow.rfl' h)) fun _ h' g _ => ih _ fun j h2 g2 => hb j h2 (g.trans g2)

/-! ### Insertion -/

theorem same_leaf {a : Nat} : ∀ m n : BNode κ ν, h[a]? = some m → h[a]? = some n → m.leaf = n.leaf := by
  intro m n hm hn
  rw [hm] at hn; cases hn; rfl

theorem blank_ok (leaf : Bool) (d n : Int) : NodeOk P h (blank leaf d n) := by
  refine ⟨Paired.blank, by simp [blank, capacity], fun _ i c hc => ?_⟩
  have := List.eq_of_mem_replicate (List.mem_of_getElem? hc)
  cases this

theorem splitChild_safe {a y : Nat} {i : Int} (ha : Inner P h a) (hy : Leafy h y) :
    Safe P (splitChild a i y : Eff (BStore κ ν × σ) Unit) Any h := by
  refine Safe.inv fun hi => ?_
  have hyo := hi.leafy hy
  refine Safe.node_bind fun y' yn hy' hyn => ?_
  cases hy'
  have hyl : yn.leaf = true := by
    obtain ⟨n, hn, hl⟩ := hy
    rw [hyn] at hn; cases hn; exact hl
  refine Safe.bind (alloc_safe (blank_ok _ _ _)) fun z h1 g1 hz => ?_
  obtain ⟨_, zn, hzn, hzl, hzk⟩ := hz
  have hzo : OkAt P h1 z := ⟨zn, hzn, hzk⟩
  have hzy : Leafy h1 z := ⟨zn, hzn, hzl.trans hyl⟩
  refine Safe.node_bind fun _ self _ _ => ?_
  refine Safe.bind (setN_safe hzo) fun _ h2 g2 _ => ?_
  refine Safe.bind (up_safe _ _ fun j h' g => copySlot_safe ((hzo.grow g2).grow g) (((hyo.grow g1).grow g2).grow g))
    fun _ h3 g3 _ => ?_
  rw [hyl]
  simp only [Bool.not_true, Bool.false_eq_true, if_false]
  have g13 := g1.trans (g2.trans g3)
  refine Safe.bind (setN_safe (hyo.grow g13)) fun _ h4 g4 _ => ?_
  have g14 := g13.trans g4
  refine Safe.node_bind fun _ self' _ _ => ?_
  refine Safe.bind (down_safe _ _ fun j h' g => copyChild_safe ((ha.grow g14).grow g).ok ((ha.grow g14).grow g).ok
    same_leaf) fun _ h5 g5 _ => ?_
  have g15 := g14.trans g5
  refine Safe.bind (setChild_safe (ha.grow g15).ok ?_) fun _ h6 g6 _ => ?_
  · intro b hb; cases hb
    exact (g2.trans (g3.trans (g4.trans g5))).ext.leafy hzy
  have g16 := g15.trans g6
  refine Safe.bind (down_safe _ _ fun j h' g => copySlot_safe ((ha.grow g16).grow g).ok ((ha.grow g16).grow g).ok)
    fun _ h7 g7 _ => ?_
  have g17 := g16.trans g7
  refine Safe.bind (copySlot_safe (ha.grow g17).ok (hyo.grow g17)) fun _ h8 g8 _ => ?_
  refine Safe.node_bind fun _ _ _ _ => ?_
  exact setN_safe ((ha.grow g17).grow g8).ok

/-- The split of an internal node below a node of degree 11 panics, whatever is said of that node. -/
theorem splitChild_stuck {a y : Nat} {i : Int} {self yn : BNode κ ν} (ha : h[a]? = some self) (hd : self.minDeg = 11)
    (hy : h[y]? = some yn) (hl : yn.leaf = false) (hk : NodeOk P h yn) :
    Safe P (splitChild a i y : Eff (BStore κ ν × σ) Unit) (fun _ _ => False) h := by
  have hyo : OkAt P h y := ⟨yn, hy, hk⟩
  refine Safe.node_bind fun y' yn' hy' hyn => ?_
  cases hy'
  rw [hy] at hyn; cases hyn
  refine Safe.bind (alloc_safe (blank_ok _ _ _)) fun z h1 g1 hz => ?_
  obtain ⟨e1, zn, hzn, hzl, hzk⟩ := hz
  have hzo : Inner P h1 z := ⟨zn, hzn, hzl.trans hl, hzk⟩
  have hyi : Inner P h1 y := Inner.grow ⟨yn, hy, hl, hk⟩ g1
  refine Safe.node_bind fun a' self' ha' hs' => ?_
  cases ha'
  rw [e1, List.getElem?_append_left (List.getElem?_eq_some_iff.1 ha).1, ha] at hs'
  cases hs'
  refine Safe.bind (setN_safe hzo.ok) fun _ h2 g2 _ => ?_
  refine Safe.bind (up_safe _ _ fun j h' g => copySlot_safe ((hzo.grow g2).grow g).ok ((hyi.grow g2).grow g).ok)
    fun _ h3 g3 _ => ?_
  rw [hl, hd]
  simp only [Bool.not_false, if_true]
  refine Safe.bind (M := fun _ _ => False) ?_ fun _ _ _ hf => hf.elim
  have g13 := g2.trans g3
  have hz3 := hzo.grow g13
  have hy3 := hyi.grow g13
  have e11 : (11 : Int).toNat = 11 := rfl
  rw [e11]
  unfold up
  refine Safe.bind (copyChild_safe hz3.ok hy3.ok ?_) fun _ h4 g4 _ => ?_
  · intro m n hm hn
    obtain ⟨m', hm', hlm, _⟩ := hz3
    obtain ⟨n', hn', hln, _⟩ := hy3
    rw [hm] at hm'; rw [hn] at hn'; cases hm'; cases hn'
    rw [hlm, hln]
  unfold up
  refine Safe.bind (M := fun _ _ => False) ?_ fun _ _ _ hf => hf.elim
  refine Safe.childAt_bind fun n c hn hc => ?_
  exfalso
  obtain ⟨n', hn', _, hk'⟩ := hy3.grow g4
  rw [hn] at hn'; cases hn'
  have := (List.getElem?_eq_some_iff.1 (getAt_slot hc).2).1
  rw [hk'.clen] at this
  simp at this

section
variable {cmp : κ → κ → Eff σ Ordering} {key : κ} {value : ν}

theorem leafLoop_safe {a : Nat} (n : Nat) : ∀ {h : BStore κ ν}, OkAt P h a → Safe P (Unwind.leafLoop cmp key a n) Any h := by
  induction n with
  | zero => intro h _; exact Safe.pure trivial
  | succ n ih =>
    intro h ho
    obtain ⟨self, hn, hk⟩ := ho
    unfold Unwind.leafLoop
    refine Safe.get_bind (Safe.lift_bind fun self' hl => Safe.lift_bind fun k hkk => ?_)
    have hl := load_inv hl
    rw [hn] at hl; cases hl
    cases k with
    | none => exact Safe.pure trivial
    | some k =>
      simp only
      refine Safe.call_bind fun o s s' _ => ?_
      by_cases hc : o = .gt
      · rw [if_pos hc]
        refine Safe.lift_bind fun ks h1 => ?_
        have hi := index_inv hkk
        have hlt := (List.getElem?_eq_some_iff.1 hi).1
        have hlv : n < self.values.length := by rw [hk.slots.vlen, ← hk.slots.klen]; exact hlt
        have hlt1 : n + 1 < self.keys.length := by
          by_cases hh : n + 1 < self.keys.length
          · exact hh
          · rw [setIndex, if_neg hh] at h1; cases h1
        have hv : index self.values n = .ok self.values[n] := by simp [index, hlv]
        have hs : setIndex self.values (n + 1) self.values[n] = .ok (self.values.set (n + 1) self.values[n]) :=
          setIndex_lt (by rw [hk.slots.vlen, ← hk.slots.klen]; exact hlt1)
        rw [hv, Eff.lift_ok, Eff.pure_bind, hs, Eff.lift_ok, Eff.pure_bind]
        intro hi s
        have hg := hi.set (node' := { self with keys := ks, values := self.values.set (n + 1) self.values[n] }) hn rfl
          ⟨hk.slots.setIndex (hk.slots.index hkk hv) h1 hs, hk.clen, hk.kids⟩
        have hla := (List.getElem?_eq_some_iff.1 hn).1
        have ha : (h.set a { self with keys := ks, values := self.values.set (n + 1) self.values[n] })[a]? = _ :=
          List.getElem?_set_self hla
        have h2 := ih (OkAt.grow ⟨self, hn, hk⟩ hg.2) hg.1 s
        exact ⟨⟨h2.1.1, hg.2.trans h2.1.2⟩, fun _ _ => trivial⟩
      · rw [if_neg hc]
        exact Safe.pure trivial

theorem insertLeaf_safe {a : Nat} (hP : P key value) (ho : OkAt P h a) : Safe P (insertLeaf cmp a key value) Any h := by
  refine Safe.node_bind fun _ self _ _ => Safe.bind (leafLoop_safe _ ho) fun i h1 g1 _ => ?_
  by_cases hn : self.n < 0
  · rw [if_pos hn]; exact Safe.panic
  · rw [if_neg hn]
    refine setSlot_safe (ho.grow g1) hP fun h2 g2 => ?_
    exact Safe.node_bind fun _ _ _ _ => setN_safe ((ho.grow g1).grow g2)

theorem childLoop_safe {ks : List (Option κ)} (n : Nat) : Safe P (Unwind.childLoop cmp key ks n) (fun _ h' => h' = h) h := by
  induction n with
  | zero => exact Safe.pure rfl
  | succ n ih =>
    unfold Unwind.childLoop
    refine Safe.lift_bind fun k _ => ?_
    cases k with
    | none => exact Safe.pure rfl
    | some k =>
      refine Safe.call_bind fun o s s' _ => ?_
      split
      · exact ih
      · exact Safe.pure rfl

theorem kid_leafy {a b : Nat} {i : Int} {n : BNode κ ν} (ha : Inner P h a) (hn : h[a]? = some n)
    (hc : getAt n.childs i = .ok (some b)) : Leafy h b := by
  obtain ⟨m, hm, hl, hk⟩ := ha
  rw [hm] at hn; cases hn
  exact (hk.kids hl).get hc b rfl

theorem insertNonFull_safe (hP : P key value) (d : Nat) : ∀ {h : BStore κ ν} {a : Nat}, OkAt P h a →
    Safe P (insertNonFull cmp key value d a) Any h := by
  induction d with
  | zero => intro h a _; exact Safe.panic
  | succ d ih =>
    intro h a ho
    unfold insertNonFull
    refine Safe.node_bind fun a' self ha' hs => ?_
    cases ha'
    by_cases hl : self.leaf = true
    · rw [if_pos hl]
      exact insertLeaf_safe hP ho
    rw [if_neg hl]
    have hin : Inner P h a := by
      obtain ⟨n, hn, hk⟩ := ho
      rw [hs] at hn; cases hn
      exact ⟨_, hs, by simpa using hl, hk⟩
    refine Safe.bind (childLoop_safe _) fun i h1 g1 e => ?_
    subst e
    by_cases hn : self.n < 0
    · rw [if_pos hn]; exact Safe.panic
    rw [if_neg hn]
    refine Safe.childAt_bind fun n c hn' hc => Safe.node_bind fun y child hy hcn => ?_
    subst hy
    have hyl := kid_leafy hin hn' hc
    refine Safe.bind (M := Any) ?_ fun i' h2 g2 _ => ?_
    · by_cases hcap : child.keys.length = capacity
      · rw [if_pos hcap]
        refine Safe.lift_bind fun y' hy' => ?_
        cases hy'
        refine Safe.bind (splitChild_safe hin hyl) fun _ h2 g2 _ => Safe.keyAt_bind fun k => ?_
        cases k with
        | none => exact Safe.pure trivial
        | some k => exact Safe.call_bind fun o _ _ _ => Safe.pure trivial
      · rw [if_neg hcap]
        exact Safe.pure trivial
    · refine Safe.childAt_bind fun n2 c2 hn2 hc2 => Safe.lift_bind fun c3 hc3 => ?_
      have := addr_inv hc3
      subst this
      exact Safe.inv fun hi => ih (hi.leafy (kid_leafy (hin.grow g2) hn2 hc2))
end

/-! ### Removal -/

theorem removeFromLeaf_safe {a : Nat} {idx : Int} (ho : OkAt P h a) :
    Safe P (removeFromLeaf a idx : Eff (BStore κ ν × σ) Unit) Any h := by
  refine Safe.node_bind fun _ self _ _ => Safe.bind (up_safe _ _ fun j h1 g1 => ?_) fun _ h2 g2 _ =>
    Safe.node_bind fun _ _ _ _ => setN_safe (ho.grow g2)
  obtain ⟨n, hn, hk⟩ := ho.grow g1
  intro hi s
  have hla := (List.getElem?_eq_some_iff.1 hn).1
  rw [Eff.bind_run, keyAt_run hn]
  cases e1 : getAt n.keys j with
  | error e => exact ⟨⟨hi, Grow.rfl' h1⟩, fun _ _ => trivial⟩
  | ok k =>
    simp only
    rw [Eff.bind_run, setKey_run hn]
    cases e2 : setAt n.keys (j - 1) k with
    | error e => exact ⟨⟨hi, Grow.rfl' h1⟩, fun _ _ => trivial⟩
    | ok ks =>
      simp only
      have hvl : n.keys.length = n.values.length := by rw [hk.slots.klen, hk.slots.vlen]
      obtain ⟨v, e3⟩ := getAt_len (m := n.values) e1 hvl
      have e4 := setAt_len e2 hvl v
      have hj := getAt_slot e1
      have hjl := (List.getElem?_eq_some_iff.1 hj.2).1
      have e5 : setAt ks j none = .ok (ks.set j.toNat none) := by
        obtain ⟨_, _, rfl⟩ := setAt_inv e2
        unfold setAt
        rw [if_neg (by omega), setIndex_lt (by simpa using hjl)]
      have e6 : setAt (n.values.set (j - 1).toNat v) j none = .ok ((n.values.set (j - 1).toNat v).set j.toNat none) := by
        unfold setAt
        rw [if_neg (by omega), setIndex_lt (by simpa [← hvl] using hjl)]
      rw [Eff.bind_run, setKey_run (n := { n with keys := ks }) (List.getElem?_set_self hla)]
      simp only [e5, List.set_set]
      rw [Eff.bind_run, valueAt_run (n := { n with keys := ks.set j.toNat none }) (List.getElem?_set_self hla)]
      simp only [e3]
      rw [Eff.bind_run, setValue_run (n := { n with keys := ks.set j.toNat none }) (List.getElem?_set_self hla)]
      simp only [e4, List.set_set]
      rw [setValue_run (n := { n with keys := ks.set j.toNat none, values := n.values.set (j - 1).toNat v })
        (List.getElem?_set_self hla)]
      simp only [e6, List.set_set]
      exact ⟨hi.set
        (node' := { n with keys := ks.set j.toNat none, values := (n.values.set (j - 1).toNat v).set j.toNat none }) hn rfl
        ⟨(hk.slots.setAt (hk.slots.get e1 e3) e2 e4).setAt (k := none) (v := none) trivial e5 e6, hk.clen, hk.kids⟩,
        fun _ _ => trivial⟩

theorem leafy_leaf {b : Nat} {n : BNode κ ν} (hl : Leafy h b) (hn : h[b]? = some n) : n.leaf = true := by
  obtain ⟨m, hm, hl⟩ := hl
  rw [hn] at hm; cases hm; exact hl

theorem borrowFromPrev_safe {a : Nat} {idx : Int} (ha : Inner P h a) :
    Safe P (borrowFromPrev a idx : Eff (BStore κ ν × σ) Unit) Any h := by
  refine Safe.inv fun hi => Safe.childAt_bind fun n c hn hc => Safe.childAt_bind fun n' s hn' hs => ?_
  refine Safe.node_bind fun b child hb hch => ?_
  subst hb
  have hbl := kid_leafy ha hn hc
  have hbo := hi.leafy hbl
  have hcl := leafy_leaf hbl hch
  refine Safe.lift_bind fun c' hc' => ?_
  cases hc'
  refine Safe.bind (down_safe _ _ fun j h' g => copySlot_safe (hbo.grow g) (hbo.grow g)) fun _ h1 g1 _ => ?_
  rw [hcl]
  simp only [Bool.not_true, Bool.false_eq_true, if_false]
  refine Safe.bind (copySlot_safe (hbo.grow g1) (ha.grow g1).ok) fun _ h2 g2 _ => ?_
  have g12 := g1.trans g2
  refine Safe.node_bind fun r sn hr hsn => Safe.lift_bind fun r' hr' => ?_
  subst hr
  cases hr'
  have hso := hi.leafy (kid_leafy ha hn' hs)
  refine Safe.bind (copySlot_safe (ha.grow g12).ok (hso.grow g12)) fun _ h3 g3 _ => ?_
  have g13 := g12.trans g3
  refine Safe.node_bind fun _ _ _ _ => Safe.bind (setN_safe (hbo.grow g13)) fun _ h4 g4 _ => ?_
  exact Safe.node_bind fun _ _ _ _ => setN_safe (hso.grow (g13.trans g4))

theorem borrowFromNext_safe {a : Nat} {idx : Int} (ha : Inner P h a) :
    Safe P (borrowFromNext a idx : Eff (BStore κ ν × σ) Unit) Any h := by
  refine Safe.inv fun hi => Safe.childAt_bind fun n c hn hc => Safe.childAt_bind fun n' s hn' hs => ?_
  refine Safe.node_bind fun b child hb hch => ?_
  subst hb
  have hbl := kid_leafy ha hn hc
  have hbo := hi.leafy hbl
  have hcl := leafy_leaf hbl hch
  refine Safe.lift_bind fun c' hc' => ?_
  cases hc'
  refine Safe.bind (copySlot_safe hbo ha.ok) fun _ h1 g1 _ => ?_
  rw [hcl]
  simp only [Bool.not_true, Bool.false_eq_true, if_false]
  refine Safe.lift_bind fun r hr => ?_
  have := addr_inv hr
  subst this
  have hsl := kid_leafy ha hn' hs
  have hso := hi.leafy hsl
  refine Safe.bind (copySlot_safe (ha.grow g1).ok (hso.grow g1)) fun _ h2 g2 _ => ?_
  have g12 := g1.trans g2
  refine Safe.node_bind fun r' sn hr' hsn => ?_
  cases hr'
  refine Safe.bind (up_safe _ _ fun j h' g => copySlot_safe ((hso.grow g12).grow g) ((hso.grow g12).grow g))
    fun _ h3 g3 _ => ?_
  have g13 := g12.trans g3
  rw [leafy_leaf (g12.ext.leafy hsl) hsn]
  simp only [Bool.not_true, Bool.false_eq_true, if_false]
  refine Safe.node_bind fun _ _ _ _ => Safe.bind (setN_safe (hbo.grow g13)) fun _ h4 g4 _ => ?_
  exact Safe.node_bind fun _ _ _ _ => setN_safe (hso.grow (g13.trans g4))

theorem merge_safe {a : Nat} {idx : Int} (ha : Inner P h a) :
    Safe P (merge a idx : Eff (BStore κ ν × σ) Unit) Any h := by
  refine Safe.inv fun hi => Safe.childAt_bind fun n c hn hc => Safe.childAt_bind fun n' s hn' hs => ?_
  refine Safe.node_bind fun b child hb hch => ?_
  subst hb
  have hbl := kid_leafy ha hn hc
  have hbo := hi.leafy hbl
  have hcl := leafy_leaf hbl hch
  refine Safe.lift_bind fun c' hc' => ?_
  cases hc'
  refine Safe.node_bind fun _ self _ _ => ?_
  refine Safe.bind (copySlot_safe hbo ha.ok) fun _ h1 g1 _ => ?_
  refine Safe.node_bind fun r sn hr hsn => Safe.lift_bind fun r' hr' => ?_
  subst hr
  cases hr'
  have hso := hi.leafy (kid_leafy ha hn' hs)
  refine Safe.bind (up_safe _ _ fun j h' g => copySlot_safe ((hbo.grow g1).grow g) ((hso.grow g1).grow g))
    fun _ h2 g2 _ => ?_
  have g12 := g1.trans g2
  rw [hcl]
  simp only [Bool.not_true, Bool.false_eq_true, if_false]
  refine Safe.bind (up_safe _ _ fun j h' g => copySlot_safe ((ha.grow g12).grow g).ok ((ha.grow g12).grow g).ok)
    fun _ h3 g3 _ => ?_
  have g13 := g12.trans g3
  refine Safe.bind (up_safe _ _ fun j h' g => copyChild_safe ((ha.grow g13).grow g).ok ((ha.grow g13).grow g).ok
    same_leaf) fun _ h4 g4 _ => ?_
  have g14 := g13.trans g4
  refine Safe.node_bind fun _ _ _ _ => Safe.node_bind fun _ _ _ _ =>
    Safe.bind (setN_safe (hbo.grow g14)) fun _ h5 g5 _ => ?_
  exact Safe.node_bind fun _ _ _ _ => setN_safe (ha.grow (g14.trans g5)).ok

theorem Safe.childN_bind {a : Nat} {i : Int} {f : Int → Eff (BStore κ ν × σ) β} (hf : ∀ n, Safe P (f n) Q h) :
    Safe P (childN a i >>= f) Q h := by
  unfold childN
  rw [Eff.bind_assoc]
  refine Safe.childAt_bind fun _ c _ _ => ?_
  rw [Eff.bind_assoc]
  exact Safe.node_bind fun _ n _ _ => hf n.n

theorem fill_safe {a : Nat} {idx : Int} (ha : Inner P h a) :
    Safe P (fill a idx : Eff (BStore κ ν × σ) Unit) Any h := by
  have hb : ∀ (p : Prop) [Decidable p] (i d : Int), Safe P (if p then do
      let n ← childN a i
      pure (decide (n ≥ d))
    else pure false : Eff (BStore κ ν × σ) Bool) (fun _ h' => h' = h) h := by
    intro p _ i d
    split
    · exact Safe.childN_bind fun n => Safe.pure rfl
    · exact Safe.pure rfl
  refine Safe.node_bind fun _ self _ _ => Safe.bind (hb _ _ _) fun b h1 _ e => ?_
  subst e
  split
  · exact borrowFromPrev_safe ha
  refine Safe.bind (hb _ _ _) fun b h1 _ e => ?_
  subst e
  split
  · exact borrowFromNext_safe ha
  split
  · exact merge_safe ha
  · exact merge_safe ha

/-- The leaf that _GetPred finds. -/
theorem predLoop_leafy {h : BStore κ ν} (d : Nat) : ∀ {p : Option Nat} {b : Nat}, predLoop h d p = .ok b → Leafy h b := by
  induction d with
  | zero => intro p b he; cases he
  | succ d ih =>
    intro p b he
    unfold predLoop at he
    obtain ⟨n, hl, he⟩ := bind_ok_inv he
    split at he
    · next hlf =>
      have := addr_inv he
      subst this
      exact ⟨n, load_inv hl, hlf⟩
    · obtain ⟨c, _, he⟩ := bind_ok_inv he
      exact ih he
/-- The leaf that _GetSucc finds. -/
theorem succLoop_leafy {h : BStore κ ν} (d : Nat) : ∀ {p : Option Nat} {b : Nat}, succLoop h d p = .ok b → Leafy h b := by
  induction d with
  | zero => intro p b he; cases he
  | succ d ih =>
    intro p b he
    unfold succLoop at he
    obtain ⟨n, hl, he⟩ := bind_ok_inv he
    split at he
    · next hlf =>
      have := addr_inv he
      subst this
      exact ⟨n, load_inv hl, hlf⟩
    · obtain ⟨c, _, he⟩ := bind_ok_inv he
      exact ih he

theorem removeFromNonLeaf_safe {remove : Nat → κ → Eff (BStore κ ν × σ) Unit} {a : Nat} {idx : Int} (ha : Inner P h a)
    (hr : ∀ {h : BStore κ ν} {b : Nat} {k : κ}, OkAt P h b → Safe P (remove b k) Any h) :
    Safe P (removeFromNonLeaf remove a idx) Any h := by
  have hgo : ∀ {h' : BStore κ ν} {i : Int} {f : Option Nat → Eff (BStore κ ν × σ) Unit}, Grow P h h' →
      (∀ c, (∀ b, c = some b → OkAt P h' b) → Safe P (f c) Any h') → Safe P (childAt a i >>= f) Any h' := by
    intro h' i f g hf
    refine Safe.inv fun hi => Safe.childAt_bind fun n c hn hc => hf c ?_
    rintro b rfl
    exact hi.leafy (kid_leafy (ha.grow g) hn hc)
  refine Safe.inv fun hi => Safe.keyAt_bind fun key => Safe.node_bind fun _ self _ _ => Safe.childN_bind fun n1 => ?_
  split
  · refine Safe.get_bind (Safe.lift_bind fun pred hp => ?_)
    obtain ⟨c, _, hp⟩ := bind_ok_inv hp
    have hpo := hi.leafy (predLoop_leafy _ hp)
    refine Safe.node_bind fun _ pn _ _ => Safe.bind (copySlot_safe ha.ok hpo) fun _ h1 g1 _ => ?_
    refine hgo g1 fun c hc => Safe.node_bind fun _ _ _ _ => Safe.keyAt_bind fun k => Safe.lift_bind fun k' _ =>
      Safe.lift_bind fun b hb => ?_
    exact hr (hc b (addr_inv hb))
  refine Safe.childN_bind fun n2 => ?_
  split
  · refine Safe.get_bind (Safe.lift_bind fun succ hp => ?_)
    obtain ⟨c, _, hp⟩ := bind_ok_inv hp
    have hpo := hi.leafy (succLoop_leafy _ hp)
    refine Safe.bind (copySlot_safe ha.ok hpo) fun _ h1 g1 _ => ?_
    refine hgo g1 fun c hc => Safe.keyAt_bind fun k => Safe.lift_bind fun k' _ => Safe.lift_bind fun b hb => ?_
    exact hr (hc b (addr_inv hb))
  · refine Safe.bind (merge_safe ha) fun _ h1 g1 _ => ?_
    refine hgo g1 fun c hc => Safe.lift_bind fun k' _ => Safe.lift_bind fun b hb => ?_
    exact hr (hc b (addr_inv hb))

section
variable {cmp : κ → κ → Eff σ Ordering}

theorem findKeyLoop_safe {key : κ} {n : Int} {ks : List (Option κ)} : ∀ (i : Int),
    Safe P (Unwind.findKeyLoop cmp key n ks i) (fun _ h' => h' = h) h := by
  induction ks with
  | nil =>
    intro i
    unfold Unwind.findKeyLoop
    split
    · exact Safe.panic
    · exact Safe.pure rfl
  | cons k ks ih =>
    intro i
    cases k with
    | none => exact Safe.pure rfl
    | some k =>
      unfold Unwind.findKeyLoop
      split
      · refine Safe.call_bind fun o _ _ _ => ?_
        split
        · exact ih _
        · exact Safe.pure rfl
      · exact Safe.pure rfl

theorem removeNode_safe (d : Nat) : ∀ {h : BStore κ ν} {a : Nat} {key : κ}, OkAt P h a →
    Safe P (removeNode cmp d a key) Any h := by
  induction d with
  | zero => intro h a key _; exact Safe.panic
  | succ d ih =>
    intro h a key ho
    unfold removeNode
    refine Safe.node_bind fun a' self ha' hs => Safe.bind (findKeyLoop_safe 0) fun i h1 g1 e => ?_
    subst e
    cases ha'
    refine Safe.bind (M := fun _ h' => h' = h1) ?_ fun present h2 _ e => ?_
    · split
      · refine Safe.keyAt_bind fun k => ?_
        cases k with
        | none => exact Safe.pure rfl
        | some k => exact Safe.call_bind fun o _ _ _ => Safe.pure rfl
      · exact Safe.pure rfl
    subst e
    have hin : self.leaf = false → Inner P h2 a := by
      intro hl
      obtain ⟨n, hn, hk⟩ := ho
      rw [hs] at hn; cases hn
      exact ⟨_, hs, hl, hk⟩
    cases hl : self.leaf with
    | true =>
      split
      · simp only [if_true]; exact removeFromLeaf_safe ho
      · simp only [if_true]; exact Safe.pure trivial
    | false =>
      have hi2 := hin hl
      simp only [Bool.false_eq_true, if_false]
      split
      · exact removeFromNonLeaf_safe hi2 ih
      · have hrest : ∀ h3, Grow P h2 h3 → Safe P (do
            let self' ← node (some a)
            let c ← (if (decide (i = self.n) && decide (i > self'.n)) = true then childAt a (i - 1) else childAt a i)
            let c ← Eff.lift (addr c)
            removeNode cmp d c key : Eff (BStore κ ν × σ) Unit) Any h3 := by
          intro h3 g3
          have hkid : ∀ i : Int, Safe P (childAt a i : Eff (BStore κ ν × σ) _) (fun c h' => ∀ b, c = some b → Leafy h' b) h3 := by
            intro i
            rw [← Eff.bind_pure (childAt a i)]
            refine Safe.childAt_bind fun n c hn hc => Safe.pure ?_
            rintro b rfl
            exact kid_leafy (hi2.grow g3) hn hc
          refine Safe.node_bind fun _ self' _ _ => Safe.bind
            (M := fun c h' => ∀ b, c = some b → Leafy h' b) ?_ fun c h4 g4 hc => Safe.lift_bind fun b hb => ?_
          · split <;> exact hkid _
          · exact Safe.inv fun hi => ih (hi.leafy (hc b (addr_inv hb)))
        refine Safe.childN_bind fun n => ?_
        split
        · exact Safe.bind (fill_safe hi2) fun _ h3 g3 _ => hrest h3 g3
        · exact hrest h2 (Grow.rfl' h2)
end

end Gost.Steps
