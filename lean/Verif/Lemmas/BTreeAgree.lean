import Verif.Lemmas.BTreeSteps
/-
The functions of Model/BTreeSteps.lean do what those of Model/BTree.lean do, where parent and children are different nodes.
-/
namespace Gost.Steps
open BTree Unwind Spec
variable {κ ν σ α β γ δ : Type}

/-- `x` does to the heap `h` what `p` says: it returns or panics in the same way, or panics with a panic in E. -/
def Agrees (E : Panic → Prop) (x : Eff (BStore κ ν × σ) α) (h : BStore κ ν) (p : Go β) (out : β → α × BStore κ ν) : Prop :=
  ∀ s, (∀ b, p = .ok b → (∃ s', x (h, s) = (.ok (out b).1, ((out b).2, s'))) ∨ ∃ e w, x (h, s) = (.error e, w) ∧ E e) ∧
    ∀ e, p = .error e → ∃ e' w, x (h, s) = (.error e', w) ∧ (e' = e ∨ E e')

section
variable {E : Panic → Prop} {h : BStore κ ν} {out : β → α × BStore κ ν}

theorem Agrees.pure {v : α} {b : β} (ho : out b = (v, h)) : Agrees (σ := σ) E (pure v) h (.ok b) out := by
  refine fun s => ⟨fun b' hb => .inl ?_, fun e he => by cases he⟩
  cases hb
  exact ⟨s, by rw [ho]; rfl⟩
theorem Agrees.panic {e : Panic} : Agrees (σ := σ) E (Eff.panic e) h (.error e : Go β) out :=
  fun _ => ⟨fun _ hb => (by cases hb), fun _ he => ⟨e, _, rfl, .inl (by cases he; rfl)⟩⟩
theorem Agrees.bind {x : Eff (BStore κ ν × σ) γ} {p : Go δ} {mid : δ → γ × BStore κ ν} {f : γ → Eff (BStore κ ν × σ) α}
    {q : δ → Go β} (hx : Agrees E x h p mid) (hf : ∀ d, p = .ok d → Agrees E (f (mid d).1) (mid d).2 (q d) out) :
    Agrees E (x >>= f) h (p >>= q) out := by
  intro s
  rw [Eff.bind_run]
  cases p with
  | error e =>
    obtain ⟨e', w, hr, he⟩ := (hx s).2 e rfl
    rw [hr]
    exact ⟨fun b hb => (by cases hb), fun _ hq => ⟨e', w, rfl, by cases hq; exact he⟩⟩
  | ok d =>
    rcases (hx s).1 d rfl with ⟨s', hr⟩ | ⟨e', w, hr, he⟩
    · rw [hr]
      exact hf d rfl s'
    · rw [hr]
      exact ⟨fun b hb => .inr ⟨e', w, rfl, he⟩, fun _ _ => ⟨e', w, rfl, .inr he⟩⟩
/-- Nothing to do in `p`. -/
theorem Agrees.step {x : Eff (BStore κ ν × σ) γ} {v : γ} {h' : BStore κ ν} {f : γ → Eff (BStore κ ν × σ) α} {p : Go β}
    (hx : ∀ s, x (h, s) = (.ok v, (h', s))) (hf : Agrees E (f v) h' p out) : Agrees E (x >>= f) h p out := by
  intro s
  rw [Eff.bind_run, hx s]
  exact hf s
theorem Agrees.stuck {x : Eff (BStore κ ν × σ) γ} {f : γ → Eff (BStore κ ν × σ) α} {e : Panic}
    (hx : ∀ s, ∃ w, x (h, s) = (.error e, w)) : Agrees E (x >>= f) h (.error e : Go β) out := by
  intro s
  obtain ⟨w, hr⟩ := hx s
  rw [Eff.bind_run, hr]
  exact ⟨fun b hb => (by cases hb), fun _ he => ⟨e, w, rfl, .inl (by cases he; rfl)⟩⟩
theorem Agrees.conv {x : Eff (BStore κ ν × σ) α} {p : Go β} {out' : β → α × BStore κ ν} (hx : Agrees E x h p out)
    (he : ∀ b, p = .ok b → out b = out' b) : Agrees E x h p out' := by
  intro s
  refine ⟨fun b hb => ?_, (hx s).2⟩
  rw [← he b hb]
  exact (hx s).1 b hb
/-- Renaming the result of `p`. -/
theorem Agrees.map {x : Eff (BStore κ ν × σ) α} {p : Go β} {g : β → γ} {out' : γ → α × BStore κ ν} (hx : Agrees E x h p out)
    (he : ∀ b, p = .ok b → out b = out' (g b)) : Agrees E x h (p >>= fun b => .ok (g b)) out' := by
  intro s
  cases p with
  | error e => exact ⟨fun b hb => (by cases hb), fun _ he => (hx s).2 _ (by cases he; rfl)⟩
  | ok b =>
    refine ⟨fun b' hb => ?_, fun e he => by cases he⟩
    cases hb
    rw [← he b rfl]
    exact (hx s).1 b rfl
theorem Agrees.of_bind {x : Eff (BStore κ ν × σ) α} {p : Go β} (hx : Agrees E (x >>= Pure.pure) h p out) : Agrees E x h p out := by
  rwa [Eff.bind_pure] at hx
theorem Agrees.lift_bind {g : Go γ} {f : γ → Eff (BStore κ ν × σ) α} {q : γ → Go β}
    (hf : ∀ v, g = .ok v → Agrees E (f v) h (q v) out) : Agrees E (Eff.lift g >>= f) h (g >>= q) out := by
  cases g with
  | error e => exact Agrees.panic
  | ok v => exact hf v rfl
theorem Agrees.lift_skip {g : Go γ} {v : γ} {f : γ → Eff (BStore κ ν × σ) α} {p : Go β} (hg : g = .ok v)
    (hf : Agrees E (f v) h p out) : Agrees E (Eff.lift g >>= f) h p out := by
  subst hg
  exact hf
theorem Agrees.get_bind {f : BStore κ ν → Eff (BStore κ ν × σ) α} {p : Go β} (hf : Agrees E (f h) h p out) :
    Agrees E (Unwind.get >>= f) h p out := hf

variable {a b : Nat} {na nb : BNode κ ν}

theorem node_run (ha : h[a]? = some na) (s : σ) : node (some a) (h, s) = (.ok na, (h, s)) := by
  simp only [node, Eff.bind_run, Unwind.get, load_of ha, Eff.lift_ok]
  rfl
theorem update_run (ha : h[a]? = some na) (g : BNode κ ν → BNode κ ν) (s : σ) :
    update a g (h, s) = (.ok (), (h.set a (g na), s)) := by
  simp only [update, Eff.bind_run, Unwind.get, load_of ha, Eff.lift_ok]
  rfl
theorem Agrees.node_bind {f : BNode κ ν → Eff (BStore κ ν × σ) α} {p : Go β} (ha : h[a]? = some na)
    (hf : Agrees E (f na) h p out) : Agrees E (node (some a) >>= f) h p out := Agrees.step (node_run ha) hf
theorem Agrees.node_nil {f : BNode κ ν → Eff (BStore κ ν × σ) α} :
    Agrees E (node none >>= f) h (.error .nilDeref : Go β) out := Agrees.stuck fun _ => ⟨_, rfl⟩
theorem Agrees.load_bind {c : Option Nat} {f : BNode κ ν → Eff (BStore κ ν × σ) α} {q : BNode κ ν → Go β}
    (hf : ∀ c' n, c = some c' → h[c']? = some n → Agrees E (f n) h (q n) out) :
    Agrees E (node c >>= f) h (load h c >>= q) out := by
  have : (node c : Eff (BStore κ ν × σ) _) >>= f = (Unwind.get >>= fun h => Eff.lift (load h c)) >>= f := rfl
  rw [this, Eff.bind_assoc]
  refine Agrees.get_bind (Agrees.lift_bind fun n hn => ?_)
  cases c with
  | none => cases hn
  | some c => exact hf c n rfl (load_inv hn)
theorem Agrees.setN_bind {n : Int} {f : Unit → Eff (BStore κ ν × σ) α} {p : Go β} (ha : h[a]? = some na)
    (hf : Agrees E (f ()) (h.set a { na with n := n }) p out) : Agrees E (setN a n >>= f) h p out :=
  Agrees.step (update_run ha _) hf
theorem Agrees.childAt_bind {i : Int} {f : Option Nat → Eff (BStore κ ν × σ) α} {q : Option Nat → Go β} (ha : h[a]? = some na)
    (hf : ∀ c, getAt na.childs i = .ok c → Agrees E (f c) h (q c) out) :
    Agrees E (childAt a i >>= f) h (getAt na.childs i >>= q) out := by
  unfold childAt
  rw [Eff.bind_assoc]
  exact Agrees.node_bind ha (Agrees.lift_bind hf)
theorem Agrees.keyAt_bind {i : Int} {f : Option κ → Eff (BStore κ ν × σ) α} {q : Option κ → Go β} (ha : h[a]? = some na)
    (hf : ∀ c, getAt na.keys i = .ok c → Agrees E (f c) h (q c) out) :
    Agrees E (keyAt a i >>= f) h (getAt na.keys i >>= q) out := by
  unfold keyAt
  rw [Eff.bind_assoc]
  exact Agrees.node_bind ha (Agrees.lift_bind hf)
theorem Agrees.valueAt_bind {i : Int} {f : Option ν → Eff (BStore κ ν × σ) α} {q : Option ν → Go β} (ha : h[a]? = some na)
    (hf : ∀ c, getAt na.values i = .ok c → Agrees E (f c) h (q c) out) :
    Agrees E (valueAt a i >>= f) h (getAt na.values i >>= q) out := by
  unfold valueAt
  rw [Eff.bind_assoc]
  exact Agrees.node_bind ha (Agrees.lift_bind hf)
theorem Agrees.setChild_bind {i : Int} {c : Option Nat} {f : Unit → Eff (BStore κ ν × σ) α} {q : List (Option Nat) → Go β}
    (ha : h[a]? = some na)
    (hf : ∀ cs, setAt na.childs i c = .ok cs → Agrees E (f ()) (h.set a { na with childs := cs }) (q cs) out) :
    Agrees E (setChild a i c >>= f) h (setAt na.childs i c >>= q) out := by
  unfold setChild
  rw [Eff.bind_assoc]
  refine Agrees.node_bind ha ?_
  rw [Eff.bind_assoc]
  exact Agrees.lift_bind fun cs hcs => Agrees.step (update_run ha _) (hf cs hcs)
theorem Agrees.setKey_bind {i : Int} {c : Option κ} {f : Unit → Eff (BStore κ ν × σ) α} {q : List (Option κ) → Go β}
    (ha : h[a]? = some na)
    (hf : ∀ cs, setAt na.keys i c = .ok cs → Agrees E (f ()) (h.set a { na with keys := cs }) (q cs) out) :
    Agrees E (setKey a i c >>= f) h (setAt na.keys i c >>= q) out := by
  unfold setKey
  rw [Eff.bind_assoc]
  refine Agrees.node_bind ha ?_
  rw [Eff.bind_assoc]
  exact Agrees.lift_bind fun cs hcs => Agrees.step (update_run ha _) (hf cs hcs)
theorem Agrees.setValue_bind {i : Int} {c : Option ν} {f : Unit → Eff (BStore κ ν × σ) α} {q : List (Option ν) → Go β}
    (ha : h[a]? = some na)
    (hf : ∀ cs, setAt na.values i c = .ok cs → Agrees E (f ()) (h.set a { na with values := cs }) (q cs) out) :
    Agrees E (setValue a i c >>= f) h (setAt na.values i c >>= q) out := by
  unfold setValue
  rw [Eff.bind_assoc]
  refine Agrees.node_bind ha ?_
  rw [Eff.bind_assoc]
  exact Agrees.lift_bind fun cs hcs => Agrees.step (update_run ha _) (hf cs hcs)

theorem got {h : BStore κ ν} {a : Nat} {na : BNode κ ν} (ha : h[a]? = some na) (x : BNode κ ν) : (h.set a x)[a]? = some x := by
  rw [List.getElem?_set_self (List.getElem?_eq_some_iff.1 ha).1]
theorem got_ne {h : BStore κ ν} {a b : Nat} {nb : BNode κ ν} (hb : h[b]? = some nb) (hab : a ≠ b) (x : BNode κ ν) :
    (h.set a x)[b]? = some nb := by
  rw [List.getElem?_set_ne hab, hb]

theorem Agrees.copySlot_bind {i j : Int} {f : Unit → Eff (BStore κ ν × σ) α} {q : Option κ → List (Option κ) → List (Option ν) → Go β}
    (ha : h[a]? = some na) (hb : h[b]? = some nb)
    (hf : ∀ k ks v vs, getAt nb.keys j = .ok k → setAt na.keys i k = .ok ks → getAt nb.values j = .ok v → setAt na.values i v = .ok vs →
      Agrees E (f ()) (h.set a { na with keys := ks, values := vs }) (q k ks vs) out) :
    Agrees E (copySlot a i b j >>= f) h (do
      let k ← getAt nb.keys j
      let ks ← setAt na.keys i k
      let v ← getAt nb.values j
      let vs ← setAt na.values i v
      q k ks vs) out := by
  unfold copySlot
  rw [Eff.bind_assoc]
  refine Agrees.keyAt_bind hb fun k hk => ?_
  rw [Eff.bind_assoc]
  refine Agrees.setKey_bind ha fun ks hks => ?_
  have ha' := got ha { na with keys := ks }
  have hv : ∃ nb', (h.set a { na with keys := ks })[b]? = some nb' ∧ nb'.values = nb.values := by
    by_cases hab : a = b
    · subst hab
      rw [ha] at hb; cases hb
      exact ⟨_, ha', rfl⟩
    · exact ⟨nb, got_ne hb hab _, rfl⟩
  obtain ⟨nb', hb', hvb⟩ := hv
  rw [Eff.bind_assoc, ← hvb]
  refine Agrees.valueAt_bind hb' fun v hv => ?_
  rw [show setAt na.values i v = setAt ({ na with keys := ks } : BNode κ ν).values i v from rfl]
  refine Agrees.setValue_bind ha' fun vs hvs => ?_
  rw [List.set_set]
  exact hf k ks v vs hk hks (hvb ▸ hv) hvs

/-- The key and value moved. -/
def move (to from' : List (Option κ) × List (Option ν)) (i j : Int) : Go (List (Option κ) × List (Option ν)) := do
  let k ← getAt from'.1 j
  let ks ← setAt to.1 i k
  let v ← getAt from'.2 j
  let vs ← setAt to.2 i v
  .ok (ks, vs)
/-- The pointer moved. -/
def moveKid (to from' : List (Option Nat)) (i j : Int) : Go (List (Option Nat)) := do
  let c ← getAt from' j
  setAt to i c

theorem copySlot_agrees {i j : Int} (ha : h[a]? = some na) (hb : h[b]? = some nb) :
    Agrees (σ := σ) E (copySlot a i b j) h (move (na.keys, na.values) (nb.keys, nb.values) i j)
      fun st => ((), h.set a { na with keys := st.1, values := st.2 }) :=
  Agrees.of_bind (Agrees.copySlot_bind (q := fun _ ks vs => .ok (ks, vs)) ha hb fun _ _ _ _ _ _ _ _ => Agrees.pure rfl)
theorem copyChild_agrees {i j : Int} (ha : h[a]? = some na) (hb : h[b]? = some nb) :
    Agrees (σ := σ) E (copyChild a i b j) h (moveKid na.childs nb.childs i j) fun cs => ((), h.set a { na with childs := cs }) := by
  unfold copyChild moveKid
  refine Agrees.childAt_bind hb fun c _ => Agrees.of_bind ?_
  have : setAt na.childs i c = setAt na.childs i c >>= Except.ok := by cases setAt na.childs i c <;> rfl
  rw [this]
  exact Agrees.setChild_bind ha fun cs _ => Agrees.pure rfl

theorem up_agrees {H : δ → BStore κ ν} {body : Int → Eff (BStore κ ν × σ) Unit} {pb : Int → δ → Go δ}
    (hb : ∀ j st, Agrees E (body j) (H st) (pb j st) fun st' => ((), H st')) (n : Nat) : ∀ (j : Int) (st : δ),
    Agrees E (up body n j) (H st) (forUp pb n j st) fun st' => ((), H st') := by
  induction n with
  | zero => intro j st; exact Agrees.pure rfl
  | succ n ih => intro j st; exact Agrees.bind (hb j st) fun st' _ => ih (j + 1) st'
theorem down_agrees {H : δ → BStore κ ν} {body : Int → Eff (BStore κ ν × σ) Unit} {pb : Int → δ → Go δ}
    (hb : ∀ j st, Agrees E (body j) (H st) (pb j st) fun st' => ((), H st')) (n : Nat) : ∀ (j : Int) (st : δ),
    Agrees E (down body n j) (H st) (forDown pb n j st) fun st' => ((), H st') := by
  induction n with
  | zero => intro j st; exact Agrees.pure rfl
  | succ n ih => intro j st; exact Agrees.bind (hb j st) fun st' _ => ih (j - 1) st'
theorem Agrees.up_bind {H : δ → BStore κ ν} {body : Int → Eff (BStore κ ν × σ) Unit} {pb : Int → δ → Go δ} {n : Nat} {j : Int}
    {st : δ} {f : Unit → Eff (BStore κ ν × σ) α} {q : δ → Go β} (he : h = H st)
    (hb : ∀ j st, Agrees E (body j) (H st) (pb j st) fun st' => ((), H st'))
    (hf : ∀ st', forUp pb n j st = .ok st' → Agrees E (f ()) (H st') (q st') out) :
    Agrees E (up body n j >>= f) h (forUp pb n j st >>= q) out := by
  subst he
  exact Agrees.bind (up_agrees hb n j st) hf
theorem Agrees.down_bind {H : δ → BStore κ ν} {body : Int → Eff (BStore κ ν × σ) Unit} {pb : Int → δ → Go δ} {n : Nat} {j : Int}
    {st : δ} {f : Unit → Eff (BStore κ ν × σ) α} {q : δ → Go β} (he : h = H st)
    (hb : ∀ j st, Agrees E (body j) (H st) (pb j st) fun st' => ((), H st'))
    (hf : ∀ st', forDown pb n j st = .ok st' → Agrees E (f ()) (H st') (q st') out) :
    Agrees E (down body n j >>= f) h (forDown pb n j st >>= q) out := by
  subst he
  exact Agrees.bind (down_agrees hb n j st) hf

theorem Agrees.alloc_bind {n : BNode κ ν} {f : Nat → Eff (BStore κ ν × σ) α} {p : Go β}
    (hf : Agrees E (f h.length) (h ++ [n]) p out) : Agrees E (alloc n >>= f) h p out :=
  Agrees.step (fun _ => rfl) hf

theorem set_last (h : BStore κ ν) (x y : BNode κ ν) : (h ++ [x]).set h.length y = h ++ [y] := by simp
theorem got_last (h : BStore κ ν) (x : BNode κ ν) : (h ++ [x])[h.length]? = some x := by simp
theorem got_app {x : BNode κ ν} (ha : h[a]? = some na) : (h ++ [x])[a]? = some na := by
  rw [List.getElem?_append_left (List.getElem?_eq_some_iff.1 ha).1, ha]

theorem splitChild_agrees {y : Nat} {i : Int} {yn : BNode κ ν} (ha : h[a]? = some na) (hy : h[y]? = some yn) (hay : a ≠ y) :
    Agrees (σ := σ) E (splitChild a i y) h (BTree.splitChild h a i y) fun h' => ((), h') := by
  unfold splitChild BTree.splitChild
  rw [load_of ha, Go.bind_ok, load_of hy, Go.bind_ok]
  refine Agrees.node_bind hy (Agrees.alloc_bind (Agrees.node_bind (got_app ha) (Agrees.setN_bind (got_last _ _) ?_)))
  rw [set_last]
  refine Agrees.up_bind (H := fun st => h ++ [{ (blank yn.leaf yn.minDeg (na.minDeg - 1) : BNode κ ν) with keys := st.1, values := st.2 }])
    rfl (fun j st => ?_) fun st1 _ => ?_
  · refine (copySlot_agrees (got_last _ _) (got_app hy)).conv fun b _ => ?_
    rw [set_last]
  obtain ⟨zk, zv⟩ := st1
  simp only
  have hrest : ∀ zc h₀, h₀ = h.length → Agrees (σ := σ) E (do
        setN y (na.minDeg - 1)
        let self ← node (some a)
        down (fun j => copyChild a (j + 1) a j) (self.n - i).toNat self.n
        setChild a (i + 1) (some h.length)
        down (fun j => copySlot a (j + 1) a j) (self.n - i + 1).toNat self.n
        copySlot a i y (self.minDeg - 1)
        let self ← node (some a)
        setN a (self.n + 1))
      (h ++ [{ (blank yn.leaf yn.minDeg (na.minDeg - 1) : BNode κ ν) with keys := zk, values := zv, childs := zc }])
      (do
        let h := (h ++ [{ (blank yn.leaf yn.minDeg (na.minDeg - 1) : BNode κ ν) with keys := zk, values := zv, childs := zc }]).set y
          { yn with n := na.minDeg - 1 }
        let self ← load h (some a)
        let cs ← forDown shiftR (self.n - i).toNat self.n self.childs
        let cs ← setAt cs (i + 1) (some h₀)
        let (ks, vs) ← forDown shiftR2 (self.n - i + 1).toNat self.n (self.keys, self.values)
        let k ← getAt yn.keys (self.minDeg - 1)
        let ks ← setAt ks i k
        let v ← getAt yn.values (self.minDeg - 1)
        let vs ← setAt vs i v
        .ok (h.set a { self with keys := ks, values := vs, childs := cs, n := self.n + 1 })) fun h' => ((), h') := by
    rintro zc h₀ rfl
    refine Agrees.setN_bind (got_app hy) ?_
    have ha1 := got_ne (got_app (x := { (blank yn.leaf yn.minDeg (na.minDeg - 1) : BNode κ ν) with keys := zk, values := zv, childs := zc }) ha)
      (Ne.symm hay) { yn with n := na.minDeg - 1 }
    have hy1 := got (got_app (x := { (blank yn.leaf yn.minDeg (na.minDeg - 1) : BNode κ ν) with keys := zk, values := zv, childs := zc }) hy)
      { yn with n := na.minDeg - 1 }
    generalize (h ++ [{ (blank yn.leaf yn.minDeg (na.minDeg - 1) : BNode κ ν) with keys := zk, values := zv, childs := zc }]).set y
          { yn with n := na.minDeg - 1 } = h1 at ha1 hy1
    refine Agrees.node_bind ha1 ?_
    simp only
    rw [load_of ha1, Go.bind_ok]
    refine Agrees.down_bind (H := fun cs => h1.set a { na with childs := cs }) (set_same ha1).symm (fun j st => ?_) fun cs1 _ => ?_
    · refine (copyChild_agrees (got ha1 _) (got ha1 _)).conv fun b _ => ?_
      rw [List.set_set]
    refine Agrees.setChild_bind (got ha1 _) fun cs2 _ => ?_
    rw [List.set_set]
    refine Agrees.down_bind (H := fun st => h1.set a { na with childs := cs2, keys := st.1, values := st.2 }) rfl (fun j st => ?_)
      fun st _ => ?_
    · refine (copySlot_agrees (got ha1 _) (got ha1 _)).conv fun b _ => ?_
      rw [List.set_set]
    obtain ⟨ks, vs⟩ := st
    refine Agrees.copySlot_bind (nb := { yn with n := na.minDeg - 1 }) (got ha1 _) (got_ne hy1 hay _) fun k ks' v vs' _ _ _ _ => ?_
    rw [List.set_set]
    refine Agrees.node_bind (got ha1 _) (Agrees.of_bind (Agrees.setN_bind (got ha1 _) (Agrees.pure ?_)))
    rw [List.set_set]
  by_cases hl : yn.leaf = true
  · rw [if_neg (by simp [hl]), if_neg (by simp [hl]), Go.bind_ok]
    exact hrest _ _ rfl
  · rw [if_pos (by simp [hl]), if_pos (by simp [hl])]
    refine Agrees.up_bind (H := fun cs => h ++ [{ (blank yn.leaf yn.minDeg (na.minDeg - 1) : BNode κ ν) with
      keys := zk, values := zv, childs := cs }]) rfl (fun j st => ?_) fun zc _ => hrest zc _ rfl
    refine (copyChild_agrees (got_last _ _) (got_app hy)).conv fun b _ => ?_
    rw [set_last]

theorem removeFromLeaf_agrees {idx : Int} (ha : h[a]? = some na) :
    Agrees (σ := σ) E (removeFromLeaf a idx) h (BTree.removeFromLeaf h a idx) fun h' => ((), h') := by
  unfold removeFromLeaf BTree.removeFromLeaf
  rw [load_of ha, Go.bind_ok]
  refine Agrees.node_bind ha (Agrees.up_bind (H := fun st => h.set a { na with keys := st.1, values := st.2 })
    (set_same ha).symm (fun j st => ?_) fun st _ => ?_)
  · unfold pullL2
    refine Agrees.keyAt_bind (got ha _) fun k _ => Agrees.setKey_bind (got ha _) fun ks _ => ?_
    rw [List.set_set]
    refine Agrees.setKey_bind (got ha _) fun ks _ => ?_
    rw [List.set_set]
    refine Agrees.valueAt_bind (got ha _) fun v _ => Agrees.setValue_bind (got ha _) fun vs _ => ?_
    rw [List.set_set]
    refine Agrees.of_bind (Agrees.setValue_bind (got ha _) fun vs _ => ?_)
    rw [List.set_set]
    exact Agrees.pure rfl
  · obtain ⟨ks, vs⟩ := st
    refine Agrees.node_bind (got ha _) (Agrees.of_bind (Agrees.setN_bind (got ha _) (Agrees.pure ?_)))
    rw [List.set_set]

theorem leafy_ne {c : Nat} (ha : h[a]? = some na) (hi : na.leaf = false) (hc : Leafy h c) : a ≠ c := by
  rintro rfl
  obtain ⟨n, hn, hl⟩ := hc
  rw [ha] at hn; cases hn
  rw [hi] at hl; cases hl

theorem Agrees.load_bind' {h₀ : BStore κ ν} {c : Option Nat} {f : BNode κ ν → Eff (BStore κ ν × σ) α} {q : BNode κ ν → Go β}
    (he : ∀ c', c = some c' → h[c']? = h₀[c']?)
    (hf : ∀ c' n, c = some c' → h[c']? = some n → Agrees E (f n) h (q n) out) :
    Agrees E (node c >>= f) h (load h₀ c >>= q) out := by
  have : load h₀ c = load h c := by
    cases c with
    | none => rfl
    | some c => simp only [load, he c rfl]
  rw [this]
  exact Agrees.load_bind hf

theorem set_swap {h : BStore κ ν} {a b : Nat} (hab : a ≠ b) (x y : BNode κ ν) : (h.set a x).set b y = (h.set b y).set a x :=
  List.set_comm x y hab

theorem borrowFromPrev_agrees {idx : Int} (ha : h[a]? = some na) (hi : na.leaf = false) (hk : Kids h na.childs)
    (hd : ∀ c, getAt na.childs idx = .ok (some c) → getAt na.childs (idx - 1) ≠ .ok (some c)) :
    Agrees (σ := σ) E (borrowFromPrev a idx) h (BTree.borrowFromPrev h a idx) fun h' => ((), h') := by
  unfold borrowFromPrev BTree.borrowFromPrev
  rw [load_of ha, Go.bind_ok]
  refine Agrees.childAt_bind ha fun c hc => Agrees.childAt_bind ha fun s hs => Agrees.load_bind fun c' child hc' hch => ?_
  subst hc'
  have hcl := leafy_leaf (hk.get hc c' rfl) hch
  have hac := leafy_ne ha hi (hk.get hc c' rfl)
  refine Agrees.lift_skip rfl ?_
  refine Agrees.down_bind (H := fun st => h.set c' { child with keys := st.1, values := st.2 }) (set_same hch).symm
    (fun j st => (copySlot_agrees (got hch _) (got hch _)).conv fun b _ => by rw [List.set_set]) fun st _ => ?_
  obtain ⟨ks, vs⟩ := st
  have hn : (!child.leaf) = false := by rw [hcl]; rfl
  simp only [hn, Bool.false_eq_true, if_false, Go.bind_ok]
  refine Agrees.copySlot_bind (got hch _) (got_ne ha (Ne.symm hac) _) fun k ks v vs _ _ _ _ => ?_
  rw [List.set_set]
  refine Agrees.load_bind' (fun s' hs' => ?_) fun s' sibling hs' hsi => ?_
  · subst hs'
    rw [List.getElem?_set_ne]
    rintro rfl
    exact hd c' hc hs
  subst hs'
  have hcs : c' ≠ s' := by rintro rfl; exact hd c' hc hs
  have has := leafy_ne ha hi (hk.get hs s' rfl)
  refine Agrees.lift_skip rfl ?_
  refine Agrees.copySlot_bind (got_ne ha (Ne.symm hac) _) hsi fun k sk v sv _ _ _ _ => ?_
  rw [show addr (some c') = .ok c' from rfl, show addr (some s') = .ok s' from rfl]
  refine Agrees.node_bind (got_ne (got hch _) hac _) (Agrees.setN_bind (got_ne (got hch _) hac _) ?_)
  refine Agrees.node_bind (got_ne (got_ne hsi has _) hcs _) (Agrees.of_bind (Agrees.setN_bind (got_ne (got_ne hsi has _) hcs _) (Agrees.pure ?_)))
  rw [set_swap hac, List.set_set, set_swap has]

theorem borrowFromNext_agrees {idx : Int} (ha : h[a]? = some na) (hi : na.leaf = false) (hk : Kids h na.childs)
    (hd : ∀ c, getAt na.childs idx = .ok (some c) → getAt na.childs (idx + 1) ≠ .ok (some c)) :
    Agrees (σ := σ) E (borrowFromNext a idx) h (BTree.borrowFromNext h a idx) fun h' => ((), h') := by
  unfold borrowFromNext BTree.borrowFromNext
  rw [load_of ha, Go.bind_ok]
  refine Agrees.childAt_bind ha fun c hc => Agrees.childAt_bind ha fun s hs => Agrees.load_bind fun c' child hc' hch => ?_
  subst hc'
  have hcl := leafy_leaf (hk.get hc c' rfl) hch
  have hac := leafy_ne ha hi (hk.get hc c' rfl)
  refine Agrees.lift_skip rfl ?_
  refine Agrees.copySlot_bind hch ha fun k ks v vs _ _ _ _ => ?_
  have hn : (!child.leaf) = false := by rw [hcl]; rfl
  simp only [hn, Bool.false_eq_true, if_false, Go.bind_ok]
  cases s with
  | none => exact Agrees.stuck fun _ => ⟨_, rfl⟩
  | some s' =>
    have hcs : c' ≠ s' := by rintro rfl; exact hd c' hc hs
    have has := leafy_ne ha hi (hk.get hs s' rfl)
    obtain ⟨sibling, hsi, hsl⟩ := hk.get hs s' rfl
    have hsi' := got_ne hsi hcs { child with keys := ks, values := vs }
    rw [load_of hsi, Go.bind_ok]
    refine Agrees.lift_skip rfl ?_
    refine Agrees.copySlot_bind (got_ne ha (Ne.symm hac) _) hsi' fun k sk v sv _ _ _ _ => ?_
    have hsi2 := got_ne hsi' has { na with keys := sk, values := sv }
    refine Agrees.node_bind hsi2 (Agrees.up_bind (H := fun st => ((h.set c' { child with keys := ks, values := vs }).set a
      { na with keys := sk, values := sv }).set s' { sibling with keys := st.1, values := st.2 }) (set_same hsi2).symm
      (fun j st => (copySlot_agrees (got hsi2 _) (got hsi2 _)).conv fun b _ => by rw [List.set_set]) fun st _ => ?_)
    obtain ⟨bk, bv⟩ := st
    have hn : (!sibling.leaf) = false := by rw [hsl]; rfl
    simp only [hn, Bool.false_eq_true, if_false, Go.bind_ok]
    rw [show addr (some c') = .ok c' from rfl, show addr (some s') = .ok s' from rfl]
    have hc3 : ∀ x y, (((h.set c' { child with keys := ks, values := vs }).set a x).set s' y)[c']? = some { child with keys := ks, values := vs } :=
      fun x y => got_ne (got_ne (got hch _) hac _) (Ne.symm hcs) _
    refine Agrees.node_bind (hc3 _ _) (Agrees.setN_bind (hc3 _ _) ?_)
    have hs3 := got_ne (got hsi2 { sibling with keys := bk, values := bv }) hcs { child with keys := ks, values := vs, n := child.n + 1 }
    refine Agrees.node_bind hs3 (Agrees.of_bind (Agrees.setN_bind hs3 (Agrees.pure ?_)))
    rw [set_swap (Ne.symm hcs), List.set_set, set_swap hac, List.set_set, set_swap has]

theorem merge_agrees {idx : Int} (ha : h[a]? = some na) (hi : na.leaf = false) (hk : Kids h na.childs)
    (hd : ∀ c, getAt na.childs idx = .ok (some c) → getAt na.childs (idx + 1) ≠ .ok (some c)) :
    Agrees (σ := σ) E (merge a idx) h (BTree.merge h a idx) fun h' => ((), h') := by
  unfold merge BTree.merge
  rw [load_of ha, Go.bind_ok]
  refine Agrees.childAt_bind ha fun c hc => Agrees.childAt_bind ha fun s hs => Agrees.load_bind fun c' child hc' hch => ?_
  subst hc'
  have hcl := leafy_leaf (hk.get hc c' rfl) hch
  have hac := leafy_ne ha hi (hk.get hc c' rfl)
  refine Agrees.lift_skip rfl (Agrees.node_bind ha ?_)
  refine Agrees.copySlot_bind hch ha fun k ks v vs _ _ _ _ => ?_
  refine Agrees.load_bind' (fun s' hs' => ?_) fun s' sibling hs' hsi => ?_
  · subst hs'
    rw [List.getElem?_set_ne]
    rintro rfl
    exact hd c' hc hs
  subst hs'
  have hcs : c' ≠ s' := by rintro rfl; exact hd c' hc hs
  have has := leafy_ne ha hi (hk.get hs s' rfl)
  refine Agrees.lift_skip rfl ?_
  have hsi0 : h[s']? = some sibling := by rw [← hsi, List.getElem?_set_ne hcs]
  refine Agrees.up_bind (H := fun st => h.set c' { child with keys := st.1, values := st.2 }) rfl
    (fun j st => (copySlot_agrees (got hch _) (got_ne hsi0 hcs _)).conv fun b _ => by rw [List.set_set]) fun st _ => ?_
  obtain ⟨ks, vs⟩ := st
  have hn : (!child.leaf) = false := by rw [hcl]; rfl
  simp only [hn, Bool.false_eq_true, if_false, Go.bind_ok]
  have ha1 := got_ne ha (Ne.symm hac) { child with keys := ks, values := vs }
  refine Agrees.up_bind (H := fun st => (h.set c' { child with keys := ks, values := vs }).set a
    { na with keys := st.1, values := st.2 }) (set_same ha1).symm
    (fun j st => (copySlot_agrees (got ha1 _) (got ha1 _)).conv fun b _ => by rw [List.set_set]) fun st _ => ?_
  obtain ⟨sk, sv⟩ := st
  refine Agrees.up_bind (H := fun st => (h.set c' { child with keys := ks, values := vs }).set a
    { na with keys := sk, values := sv, childs := st }) rfl
    (fun j st => (copyChild_agrees (got ha1 _) (got ha1 _)).conv fun b _ => by rw [List.set_set]) fun sc _ => ?_
  rw [show addr (some c') = .ok c' from rfl]
  refine Agrees.node_bind (got_ne (got_ne hsi0 hcs _) has _) (Agrees.node_bind (got_ne (got hch _) hac _) (Agrees.setN_bind (got_ne (got hch _) hac _) ?_))
  refine Agrees.node_bind (got_ne (got ha1 _) (Ne.symm hac) _) (Agrees.of_bind (Agrees.setN_bind (got_ne (got ha1 _) (Ne.symm hac) _) (Agrees.pure ?_)))
  rw [set_swap hac, List.set_set, List.set_set]
end

end Gost.Steps
