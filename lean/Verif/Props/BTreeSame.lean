import Verif.Lemmas.BTreeAgreeCmp
import Verif.Props.BTreeSteps
/-
Property C149: what a BTreeMap does depends on the answers of Cmp only.
-/
namespace Gost
open Spec BTree Unwind
open Steps (Agrees AgreesM)
variable {κ ν σ β : Type} {ord : κ → κ → Ordering} {cmp : κ → κ → Eff σ Ordering}

/-! ### The children of a node are different nodes -/

theorem BMap.insert_sep {P : κ → ν → Prop} {h h' : BStore κ ν} {m m' : BMap} {key : κ} {value : ν} {r : Opt ν} (ho : HeapOk P h)
    (hs : Sep h) (he : m.insert ord h key value = .ok (h', m', r)) : Sep h' := by
  obtain ⟨root, len⟩ := m
  unfold BMap.insert at he
  cases root with
  | none =>
    simp only at he
    obtain ⟨ks, h1, he⟩ := bind_ok_inv he
    obtain ⟨vs, h2, he⟩ := bind_ok_inv he
    cases he
    exact hs.push fun hf => absurd hf (by simp [blank])
  | some root =>
    simp only at he
    obtain ⟨result, hsr, he⟩ := bind_ok_inv he
    cases result with
    | some ai =>
      obtain ⟨b, i⟩ := ai
      simp only at he
      obtain ⟨node, hl, he⟩ := bind_ok_inv he
      obtain ⟨old, _, he⟩ := bind_ok_inv he
      obtain ⟨vs, h1, he⟩ := bind_ok_inv he
      obtain ⟨o2, _, he⟩ := bind_ok_inv he
      cases he
      exact hs.set fun hf => hs b node (load_inv hl) hf
    | none =>
      simp only at he
      obtain ⟨rn, hl, he⟩ := bind_ok_inv he
      have hl := load_inv hl
      by_cases hfull : rn.n = (capacity : Int)
      · rw [if_pos hfull] at he
        obtain ⟨cs, h1, he⟩ := bind_ok_inv he
        obtain ⟨h2, hsp, he⟩ := bind_ok_inv he
        obtain ⟨nr, _, he⟩ := bind_ok_inv he
        obtain ⟨k, _, he⟩ := bind_ok_inv he
        obtain ⟨k', _, he⟩ := bind_ok_inv he
        obtain ⟨c, _, he⟩ := bind_ok_inv he
        obtain ⟨c', _, he⟩ := bind_ok_inv he
        obtain ⟨h3, hin, he⟩ := bind_ok_inv he
        cases he
        have ha := Steps.got_last h { (blank false capacity 0 : BNode κ ν) with childs := cs }
        have hy := Steps.got_app (x := { (blank false capacity 0 : BNode κ ν) with childs := cs }) hl
        have hleaf : rn.leaf = true := by
          by_cases hlf : rn.leaf = true
          · exact hlf
          · exact (splitChild_internal ha rfl hy (by simpa using hlf) (ho root rn hl).clen hsp).elim
        have hcs := setIndex_inv h1
        have k1 := ho.push (node := { (blank false capacity 0 : BNode κ ν) with childs := cs })
          ⟨Paired.blank, by rw [hcs]; simp [blank, capacity], fun _ => by
            rw [hcs]
            intro j d hd
            by_cases hj : 0 = j
            · subst hj
              simp [blank, capacity] at hd
              subst hd
              exact ⟨rn, hl, hleaf⟩
            · rw [List.getElem?_set_ne hj] at hd
              have := List.eq_of_mem_replicate (List.mem_of_getElem? hd)
              cases this⟩
        have s1 : Sep (h ++ [{ (blank false capacity 0 : BNode κ ν) with childs := cs }]) :=
          hs.push fun _ => ⟨by simp [blank], fun i j c hi hj _ _ => by simp only [blank] at hi hj; omega⟩
        have k2 := splitChild_keeps k1.1 ha (fun _ => .inl rfl) hsp
        have s2 := splitChild_sep k1.1 s1 ha rfl ⟨rn, hy, hleaf⟩ (by omega) (by simp [blank]) hsp
        exact insertNonFull_sep _ k2.1 s2 hin
      · rw [if_neg hfull] at he
        obtain ⟨h1, hin, he⟩ := bind_ok_inv he
        cases he
        exact insertNonFull_sep _ ho hs hin

theorem BMap.remove_sep {P : κ → ν → Prop} {h h' : BStore κ ν} {m m' : BMap} {key : κ} {r : Opt ν} (ho : HeapOk P h)
    (hs : Sep h) (he : m.remove ord h key = .ok (h', m', r)) : Sep h' := by
  obtain ⟨root, len⟩ := m
  unfold BMap.remove at he
  cases root with
  | none => cases he; exact hs
  | some root =>
    simp only at he
    obtain ⟨result, _, he⟩ := bind_ok_inv he
    obtain ⟨h1, hrm, he⟩ := bind_ok_inv he
    obtain ⟨rn, _, he⟩ := bind_ok_inv he
    obtain ⟨nr, _, he⟩ := bind_ok_inv he
    have s1 := removeNode_sep _ ho hs hrm
    cases result with
    | none => cases he; exact s1
    | some ai =>
      obtain ⟨b, i⟩ := ai
      simp only at he
      obtain ⟨node, _, he⟩ := bind_ok_inv he
      obtain ⟨v, _, he⟩ := bind_ok_inv he
      obtain ⟨v', _, he⟩ := bind_ok_inv he
      cases he
      exact s1

theorem AnyOp.step_sep {P : κ → ν → Prop} {s s' : BVars κ ν} {o : AnyOp κ ν} {r : Obs ν} (ho : HeapOk P s.1) (hs : Sep s.1)
    (he : AnyOp.step ord o s = .ok (s', r)) : Sep s'.1 := by
  obtain ⟨h, vars⟩ := s
  cases o with
  | assign x y => cases he; exact hs
  | call x o =>
    simp only [AnyOp.step] at he
    obtain ⟨⟨⟨h1, m1⟩, r1⟩, h2, he⟩ := bind_ok_inv he
    cases he
    cases o with
    | insert k v =>
      simp only [BMap.step] at h2
      obtain ⟨⟨h3, m3, r3⟩, h4, h2⟩ := bind_ok_inv h2
      cases h2
      exact BMap.insert_sep ho hs h4
    | remove k =>
      simp only [BMap.step] at h2
      obtain ⟨⟨h3, m3, r3⟩, h4, h2⟩ := bind_ok_inv h2
      cases h2
      exact BMap.remove_sep ho hs h4
    | get k =>
      simp only [BMap.step] at h2
      obtain ⟨r3, h4, h2⟩ := bind_ok_inv h2
      cases h2
      exact hs
    | containsKey k =>
      simp only [BMap.step] at h2
      obtain ⟨r3, h4, h2⟩ := bind_ok_inv h2
      cases h2
      exact hs
    | len => cases h2; exact hs
    | isEmpty => cases h2; exact hs
    | clear => cases h2; exact hs

/-! ### One step -/

/-- The step of a program whose Cmp has effects. -/
def AnyOp.toStep (σ : Type) : AnyOp κ ν → StepOp κ ν σ
  | .call x o => .call x o
  | .assign x y => .assign x y

/-- `x` returns, changes the maps and panics as `p` says, or Cmp panicked. -/
def Spec.Same (cmp : κ → κ → Eff σ Ordering) (p : Go (BVars κ ν × Obs ν)) (x : Except Panic (Obs ν) × SState κ ν σ) : Prop :=
  (∀ h vars r, p = .ok ((h, vars), r) → ∃ s, x = (.ok r, (vars, (h, s)))) ∧
  (∀ e, p = .error e → ∃ st, x = (.error e, st)) ∨ ∃ e st, x = (.error e, st) ∧ Raises cmp e

theorem AgreesM.same {m : Eff (BMap × (BStore κ ν × σ)) (Opt ν)} {x : Nat} {vars : Nat → BMap} {h : BStore κ ν}
    {p : Go (BStore κ ν × BMap × Opt ν)} (ha : AgreesM (Raises cmp) m (vars x) h p id) (s : σ) :
    Same cmp (do
      let ((h, m), r) ← (do let (h, m, r) ← p; .ok ((h, m), .opt r.value))
      .ok ((h, fun y => if y = x then m else vars y), r))
      ((do let r ← StepOp.on x m; Pure.pure (.opt r.value) : Eff (SState κ ν σ) (Obs ν)) (vars, (h, s))) := by
  rw [Eff.bind_run]
  unfold StepOp.on
  simp only
  cases p with
  | error e =>
    obtain ⟨e', w, hr, he⟩ := (ha s).2 e rfl
    rw [hr]
    rcases he with rfl | he
    · refine .inl ⟨fun h vars r hp => (by cases hp), fun e hp => ?_⟩
      cases hp
      exact ⟨_, rfl⟩
    · exact .inr ⟨e', _, rfl, he⟩
  | ok b =>
    obtain ⟨h1, m1, r1⟩ := b
    rcases (ha s).1 _ rfl with ⟨s', hr⟩ | ⟨e', w, hr, he⟩
    · rw [hr]
      refine .inl ⟨fun h vars r hp => ?_, fun e hp => by cases hp⟩
      cases hp
      exact ⟨s', rfl⟩
    · rw [hr]
      exact .inr ⟨e', _, rfl, he⟩

theorem Agrees.same {r : Type} {m : (Nat → BMap) → Eff (BStore κ ν × σ) r} {vars : Nat → BMap} {h : BStore κ ν} {x : Nat}
    {p : Go r} {g : r → Obs ν} (ha : Agrees (Raises cmp) (m vars) h p fun r => (r, h)) (s : σ) :
    Same cmp (do
      let ((h, m), r) ← (do let r ← p; .ok ((h, vars x), g r))
      .ok ((h, fun y => if y = x then m else vars y), r))
      ((do let vars ← Unwind.get; let r ← Unwind.call (m vars); Pure.pure (g r) : Eff (SState κ ν σ) (Obs ν)) (vars, (h, s))) := by
  have hv : (fun y => if y = x then vars x else vars y) = vars := by
    funext y
    split
    · next h => rw [h]
    · rfl
  simp only [Eff.bind_run, Unwind.get, Unwind.call]
  cases p with
  | error e =>
    obtain ⟨e', w, hr, he⟩ := (ha s).2 e rfl
    rw [hr]
    rcases he with rfl | he
    · refine .inl ⟨fun h vars r hp => (by cases hp), fun e hp => ?_⟩
      cases hp
      exact ⟨_, rfl⟩
    · exact .inr ⟨e', _, rfl, he⟩
  | ok b =>
    rcases (ha s).1 _ rfl with ⟨s', hr⟩ | ⟨e', w, hr, he⟩
    · rw [hr]
      refine .inl ⟨fun h vars r hp => ?_, fun e hp => by cases hp⟩
      simp only [Go.bind_ok, hv] at hp
      cases hp
      exact ⟨s', rfl⟩
    · rw [hr]
      exact .inr ⟨e', _, rfl, he⟩

theorem bGet_agrees (hA : Answers cmp ord) {h : BStore κ ν} {m : BMap} {key : κ} :
    Agrees (Raises cmp) (bGet cmp m key) h (m.get ord h key) fun r => (r, h) := by
  unfold bGet BMap.get
  cases m.root with
  | none => exact Agrees.pure rfl
  | some root =>
    refine Agrees.get_bind (Agrees.bind (Steps.search_agrees hA _ _) fun r _ => ?_)
    cases r with
    | none => exact Agrees.pure rfl
    | some ai =>
      exact Agrees.lift_bind fun _ _ => Agrees.lift_bind fun _ _ => Agrees.lift_bind fun _ _ => Agrees.pure rfl

theorem bContainsKey_agrees (hA : Answers cmp ord) {h : BStore κ ν} {m : BMap} {key : κ} :
    Agrees (Raises cmp) (bContainsKey cmp m key) h (m.containsKey ord h key) fun r => (r, h) := by
  unfold bContainsKey BMap.containsKey
  cases m.root with
  | none => exact Agrees.pure rfl
  | some root =>
    exact Agrees.get_bind (Agrees.bind (Steps.search_agrees hA _ _) fun r _ => Agrees.pure rfl)

theorem AnyOp.step_same (hA : Answers cmp ord) {P : κ → ν → Prop} {h : BStore κ ν} {vars : Nat → BMap} (ho : HeapOk P h)
    (hs : Sep h) (hr : ∀ x, RootIn h (vars x)) (o : AnyOp κ ν) (s : σ) :
    Same cmp (AnyOp.step ord o (h, vars)) ((o.toStep σ).step cmp (vars, (h, s))) := by
  have hv : ∀ x, (fun y => if y = x then vars x else vars y) = vars := by
    intro x
    funext y
    split
    · next h => rw [h]
    · rfl
  cases o with
  | assign x y =>
    refine .inl ⟨fun h' vars' r hp => ?_, fun e hp => by cases hp⟩
    cases hp
    exact ⟨s, rfl⟩
  | call x o =>
    cases o with
    | insert k v => exact AgreesM.same (Steps.insert_agrees hA ho (hr x)) s
    | remove k => exact AgreesM.same (Steps.remove_agrees hA ho hs (hr x)) s
    | get k => exact Agrees.same (m := fun vars => bGet cmp (vars x) k) (g := fun r => .opt r.value) (bGet_agrees hA) s
    | containsKey k => exact Agrees.same (m := fun vars => bContainsKey cmp (vars x) k) (g := .bool) (bContainsKey_agrees hA) s
    | len =>
      refine .inl ⟨fun h' vars' r hp => ?_, fun e hp => by cases hp⟩
      simp only [AnyOp.step, BMap.step, Go.bind_ok, hv] at hp
      cases hp
      exact ⟨s, rfl⟩
    | isEmpty =>
      refine .inl ⟨fun h' vars' r hp => ?_, fun e hp => by cases hp⟩
      simp only [AnyOp.step, BMap.step, Go.bind_ok, hv] at hp
      cases hp
      exact ⟨s, rfl⟩
    | clear =>
      refine .inl ⟨fun h' vars' r hp => ?_, fun e hp => by cases hp⟩
      cases hp
      exact ⟨s, rfl⟩

/-! ### Histories -/

/-- Nodes in shape, with different children. -/
structure Sound (s : BVars κ ν) : Prop where
  heap : HeapOk (fun _ _ => True) s.1
  sep : Sep s.1
  roots : ∀ x, RootIn s.1 (s.2 x)

theorem Sound.init : Sound (BVars.init : BVars κ ν) :=
  ⟨fun a n hn => by simp [BVars.init] at hn, fun a n hn => by simp [BVars.init] at hn,
    fun x r hr => by simp [BVars.init, BMap.new] at hr⟩

theorem Sound.step {s s' : BVars κ ν} {o : AnyOp κ ν} {r : Obs ν} (hs : Sound s) (he : AnyOp.step ord o s = .ok (s', r)) :
    Sound s' := by
  refine ⟨?_, AnyOp.step_sep hs.heap hs.sep he, ?_⟩ <;>
  obtain ⟨h, vars⟩ := s <;>
  (cases o with
  | assign x y =>
    cases he
    first
      | exact hs.heap
      | intro z; show RootIn _ (if z = x then vars y else vars z); split <;> exact hs.roots _
  | call x o =>
    simp only [AnyOp.step] at he
    obtain ⟨⟨⟨h1, m1⟩, r1⟩, h2, he⟩ := bind_ok_inv he
    cases he
    have hk : Keeps (fun _ _ => True) h h1 ∧ RootIn h1 m1 := by
      cases o with
      | insert k v =>
        simp only [BMap.step] at h2
        obtain ⟨⟨h3, m3, r3⟩, h4, h2⟩ := bind_ok_inv h2
        cases h2
        exact BMap.insert_keeps hs.heap (hs.roots x) trivial (fun _ _ _ _ => trivial) h4
      | remove k =>
        simp only [BMap.step] at h2
        obtain ⟨⟨h3, m3, r3⟩, h4, h2⟩ := bind_ok_inv h2
        cases h2
        have := BMap.remove_keeps hs.heap (hs.roots x) h4
        exact ⟨this.1, this.2.1⟩
      | get k =>
        simp only [BMap.step] at h2
        obtain ⟨r3, h4, h2⟩ := bind_ok_inv h2
        cases h2
        exact ⟨Keeps.rfl' hs.heap, hs.roots x⟩
      | containsKey k =>
        simp only [BMap.step] at h2
        obtain ⟨r3, h4, h2⟩ := bind_ok_inv h2
        cases h2
        exact ⟨Keeps.rfl' hs.heap, hs.roots x⟩
      | len => cases h2; exact ⟨Keeps.rfl' hs.heap, hs.roots x⟩
      | isEmpty => cases h2; exact ⟨Keeps.rfl' hs.heap, hs.roots x⟩
      | clear => cases h2; exact ⟨Keeps.rfl' hs.heap, fun r hr => by cases hr⟩
    first
      | exact hk.1.1
      | (intro y
         show RootIn _ (if y = x then m1 else vars y)
         split
         · exact hk.2
         · exact (hs.roots y).ext hk.1.2))

theorem Sound.run {os : List (AnyOp κ ν)} : ∀ {s s' : BVars κ ν} {rs : List (Obs ν)},
    Sound s → runGo (AnyOp.step ord) os s = .ok (rs, s') → Sound s' := by
  induction os with
  | nil => intro s s' rs hs he; cases he; exact hs
  | cons o os ih =>
    intro s s' rs hs he
    unfold runGo at he
    obtain ⟨⟨s1, r1⟩, h1, he⟩ := bind_ok_inv he
    obtain ⟨⟨rs2, s2⟩, h2, he⟩ := bind_ok_inv he
    cases he
    exact ih (hs.step h1) h2

/-- C149: after any calls that returned, a further call returns, panics and changes the maps as the ordering says, whatever
else Cmp does, unless Cmp itself panics. -/
theorem C149_step (hA : Answers cmp ord) {os : List (AnyOp κ ν)} {h : BStore κ ν} {vars : Nat → BMap} (ha : After ord os h vars)
    (o : AnyOp κ ν) (s : σ) :
    ((∀ h' vars' r, AnyOp.step ord o (h, vars) = .ok ((h', vars'), r) →
        ∃ s', (o.toStep σ).step cmp (vars, (h, s)) = (.ok r, (vars', (h', s')))) ∧
      (∀ e, AnyOp.step ord o (h, vars) = .error e → ∃ st, (o.toStep σ).step cmp (vars, (h, s)) = (.error e, st))) ∨
    ∃ e st, (o.toStep σ).step cmp (vars, (h, s)) = (.error e, st) ∧ ∃ a b s', (cmp a b s').1 = .error e := by
  obtain ⟨rs, ha⟩ := ha
  have hs := Sound.init.run ha
  exact AnyOp.step_same hA hs.heap hs.sep hs.roots o s

theorem same_run (hA : ∀ a b s, ∃ s', cmp a b s = (.ok (ord a b), s')) (os : List (AnyOp κ ν)) : ∀ {h : BStore κ ν}
    {vars : Nat → BMap}, Sound (h, vars) → ∀ s : σ,
    (∀ (rs : List (Obs ν)) h' vars', runGo (AnyOp.step ord) os (h, vars) = .ok (rs, (h', vars')) →
      ∃ s', StepOp.run cmp (os.map (AnyOp.toStep σ)) (vars, (h, s)) = (rs.map .ok, (vars', (h', s')))) ∧
    (∀ e, runGo (AnyOp.step ord) os (h, vars) = .error e → ∃ os₁ o os₂ rs s₁ rest,
      os = os₁ ++ o :: os₂ ∧ runGo (AnyOp.step ord) os₁ (h, vars) = .ok (rs, s₁) ∧
      (StepOp.run cmp (os.map (AnyOp.toStep σ)) (vars, (h, s))).1 = rs.map .ok ++ .error e :: rest) := by
  have hA' : Answers cmp ord := by
    intro a b s o s' h
    obtain ⟨s1, h1⟩ := hA a b s
    rw [h1] at h
    cases h; rfl
  induction os with
  | nil =>
    intro h vars hs s
    refine ⟨fun rs h' vars' he => ?_, fun e he => by cases he⟩
    cases he
    exact ⟨s, rfl⟩
  | cons o os ih =>
    intro h vars hs s
    rcases AnyOp.step_same hA' hs.heap hs.sep hs.roots o s with ⟨h1, h2⟩ | ⟨e, st, _, a, b, s', hr⟩
    · simp only [List.map_cons, StepOp.run, runGo]
      cases hst : AnyOp.step ord o (h, vars) with
      | error e =>
        obtain ⟨st, hx⟩ := h2 e hst
        rw [hx]
        refine ⟨fun _ _ _ he => (by cases he), fun e' he => ?_⟩
        cases he
        exact ⟨[], o, os, [], _, _, rfl, rfl, rfl⟩
      | ok r =>
        obtain ⟨⟨h', vars'⟩, r⟩ := r
        obtain ⟨s', hx⟩ := h1 _ _ _ hst
        rw [hx]
        obtain ⟨i1, i2⟩ := ih (hs.step hst) s'
        simp only [Go.bind_ok]
        cases hrun : runGo (AnyOp.step ord) os (h', vars') with
        | error e =>
          obtain ⟨os₁, o', os₂, rs, s₁, rest, h3, h4, hh⟩ := i2 e hrun
          refine ⟨fun _ _ _ he => (by cases he), fun e' he => ?_⟩
          cases he
          refine ⟨o :: os₁, o', os₂, r :: rs, s₁, rest, by rw [h3]; rfl, ?_, by simp only [hh]; rfl⟩
          simp only [runGo, hst, Go.bind_ok, h4]
        | ok q =>
          obtain ⟨rs, h2, vars2⟩ := q
          obtain ⟨s2, hh⟩ := i1 _ _ _ hrun
          refine ⟨fun rs' h3 vars3 he => ?_, fun e' he => by cases he⟩
          cases he
          exact ⟨s2, by simp only [hh]; rfl⟩
    · obtain ⟨s1, h1⟩ := hA a b s'
      rw [h1] at hr
      cases hr

/-- C149: with a Cmp that always answers by the ordering, whatever else it does, a program gets the results that the ordering
gives, up to the first panic, which is the same one; if there is none, the maps are the same in the end, too. -/
theorem C149_run (hA : ∀ a b s, ∃ s', cmp a b s = (.ok (ord a b), s')) (os : List (AnyOp κ ν)) (s : σ) :
    (∀ (rs : List (Obs ν)) h vars, runGo (AnyOp.step ord) os BVars.init = .ok (rs, (h, vars)) →
      ∃ s', StepOp.run cmp (os.map (AnyOp.toStep σ)) (fun _ => BMap.new, ([], s)) = (rs.map .ok, (vars, (h, s')))) ∧
    (∀ e, runGo (AnyOp.step ord) os BVars.init = .error e → ∃ os₁ o os₂ rs s₁ rest,
      os = os₁ ++ o :: os₂ ∧ runGo (AnyOp.step ord) os₁ BVars.init = .ok (rs, s₁) ∧
      (StepOp.run cmp (os.map (AnyOp.toStep σ)) (fun _ => BMap.new, ([], s))).1 = rs.map .ok ++ .error e :: rest) :=
  same_run hA os Sound.init s

/-- A Cmp that counts its calls. -/
def Spec.tally (a b : Nat) : Eff Nat Ordering := fun s => (.ok (compare a b), s + 1)
example : ∀ a b s, ∃ s', tally a b s = (.ok (compare a b), s') := fun _ _ s => ⟨s + 1, rfl⟩
/-- Fourteen keys, through two variables. -/
def sameExample : List (AnyOp Nat Nat) :=
  (List.range 13).map (fun i => .call 0 (.insert (3 * i) i)) ++
    [.assign 1 0, .call 0 (.insert 7 70), .call 1 (.get 7), .call 1 (.remove 36), .call 0 .len]
example : (match runGo (AnyOp.step compare) sameExample BVars.init with
    | .ok (rs, _) => rs.drop 13
    | .error _ => []) = [.unit, .opt none, .opt (some 70), .opt none, .nat 14] := by decide +kernel
example : (StepOp.run tally (sameExample.map (AnyOp.toStep Nat)) (fun _ => BMap.new, ([], 0))).2.2.2 = 111 := by
  decide +kernel
example : (match runGo (AnyOp.step compare)
      ((List.range 13).map (fun i => AnyOp.call 0 (.insert i i)) ++ [.call 0 (.remove 11)]) BVars.init with
    | .ok _ => none
    | .error e => some e) = some .nilDeref := by decide +kernel
end Gost
