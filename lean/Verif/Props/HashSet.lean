import Verif.Props.HashMap
/-
Property C71: HashSet as a mathematical set.
-/
set_option linter.unusedSectionVars false
namespace Gost
open Spec

section
variable {κ : Type} [GoKey κ] [LawfulGoKey κ]

/-- The handle refers to a map of the heap that holds exactly the elements of `p`. -/
def HSet.Rep (h : SetHeap κ) (s : HSet) (p : FSet κ) : Prop := s.hashMap.Rep h p.toMap

theorem Spec.FSet.toMap_isSome (p : FSet κ) (k : κ) : (p.toMap.get k).isSome = p.mem k := by
  simp only [FSet.toMap]; cases p.mem k <;> rfl

theorem Spec.FSet.toMap_insert (p : FSet κ) (k : κ) : (p.insert k).toMap = p.toMap.insert k () := by
  have h1 := p.toMap_isSome k
  unfold FMap.insert
  rw [h1]
  simp only [FSet.insert, FSet.toMap, FMap.mk.injEq, and_true]
  funext k'
  rcases Bool.eq_false_or_eq_true (GoKey.eq k' k) with h | h <;> simp [h]

theorem Spec.FSet.toMap_remove (p : FSet κ) (k : κ) : (p.remove k).toMap = p.toMap.remove k := by
  have h1 := p.toMap_isSome k
  unfold FMap.remove
  rw [h1]
  simp only [FSet.remove, FSet.toMap, FMap.mk.injEq, and_true]
  funext k'
  rcases Bool.eq_false_or_eq_true (GoKey.eq k' k) with h | h <;> simp [h]

theorem HSet.insert_eq {h : SetHeap κ} {s : HSet} {p : FSet κ} (hs : s.Rep h p) (k : κ) :
    ∃ h', s.insert h k = .ok (h', !p.mem k) ∧ s.Rep h' (p.insert k) ∧
      HMap.Frame h s.hashMap h' s.hashMap ∧ h'.length = h.length := by
  obtain ⟨h', h1, h2, h3, h4⟩ := HMap.insert_eq hs k ()
  refine ⟨h', ?_, ?_, h3, h4⟩
  · simp only [HSet.insert, h1, Go.bind_ok, Opt.isNone, FSet.toMap]
    cases p.mem k <;> rfl
  · unfold HSet.Rep; rw [FSet.toMap_insert]; exact h2

theorem HSet.contains_eq {h : SetHeap κ} {s : HSet} {p : FSet κ} (hs : s.Rep h p) (k : κ) :
    s.contains h k = .ok (p.mem k) := by
  rw [HSet.contains, HMap.containsKey_eq hs, FSet.toMap_isSome]

/-- Equal keys are both in the set or both not. -/
theorem HSet.Rep.resp {h : SetHeap κ} {s : HSet} {p : FSet κ} (hs : s.Rep h p) {k k' : κ}
    (hk : GoKey.eq k k' = true) : p.mem k = p.mem k' := by
  obtain ⟨r, es, _, _, he⟩ := hs
  rw [← FSet.toMap_isSome, ← FSet.toMap_isSome, ← he.lk, ← he.lk]
  unfold GoMap.lk
  congr 3
  funext y
  exact GoKey.eq_left hk y.1

theorem HSet.Rep.congr_mem {h : SetHeap κ} {s : HSet} {p : FSet κ} (hs : s.Rep h p) {f : κ → Bool}
    (hf : p.mem = f) : s.Rep h ⟨f, p.size⟩ := by
  subst hf; exact hs

/-! ### Histories -/

/-- The operations of C71 on one set. -/
inductive SOp (κ : Type) where
  | insert (k : κ) | remove (k : κ) | get (k : κ) | contains (k : κ) | len | isEmpty | clear

/-- What they do on a mathematical set. -/
def Spec.setStep : SOp κ → FSet κ → FSet κ × Obs κ
  | .insert k, p => (p.insert k, .bool (!p.mem k))
  | .remove k, p => (p.remove k, .bool (p.mem k))
  | .get k, p => (p, .opt (if p.mem k then some k else none))
  | .contains k, p => (p, .bool (p.mem k))
  | .len, p => (p, .nat p.size)
  | .isEmpty, p => (p, .bool (p.size == 0))
  | .clear, _ => (FSet.empty, .unit)

/-- The library's operations. -/
def HSet.step : SOp κ → SetHeap κ × HSet → Go ((SetHeap κ × HSet) × Obs κ)
  | .insert k, (h, s) => do let (h, r) ← s.insert h k; .ok ((h, s), .bool r)
  | .remove k, (h, s) => do let (h, r) ← s.remove h k; .ok ((h, s), .bool r)
  | .get k, (h, s) => do let r ← s.get h k; .ok ((h, s), .opt r.value)
  | .contains k, (h, s) => do let b ← s.contains h k; .ok ((h, s), .bool b)
  | .len, (h, s) => .ok ((h, s), .nat (s.len h))
  | .isEmpty, (h, s) => .ok ((h, s), .bool (s.isEmpty h))
  | .clear, (h, s) => .ok (s.clear h, .unit)

theorem HSet.step_refines (o : SOp κ) (h : SetHeap κ) (s : HSet) (p : FSet κ) (hs : s.Rep h p)
    (hsz : p.size < 2 ^ 64) :
    ∃ h' s', HSet.step o (h, s) = .ok ((h', s'), (Spec.setStep o p).2) ∧
      s'.Rep h' (Spec.setStep o p).1 ∧ HMap.Frame h s.hashMap h' s'.hashMap := by
  cases o with
  | insert k =>
    obtain ⟨h', h1, h2, h3, _⟩ := HSet.insert_eq hs k
    exact ⟨h', s, by simp [HSet.step, h1, Spec.setStep], h2, h3⟩
  | remove k =>
    obtain ⟨h', h1, h2, h3⟩ := HMap.remove_eq hs k
    refine ⟨h', s, ?_, ?_, h3⟩
    · simp only [HSet.step, HSet.remove, h1, Go.bind_ok, Spec.setStep, Opt.isSome, FSet.toMap]
      cases p.mem k <;> rfl
    · unfold HSet.Rep Spec.setStep; rw [FSet.toMap_remove]; exact h2
  | get k =>
    refine ⟨h, s, ?_, hs, .rfl' _ _⟩
    have hk := FSet.toMap_isSome p k
    obtain ⟨r, es, hd, hr, he⟩ := hs
    simp only [HSet.step, HSet.get, HMap.get]
    rw [HMap.load_eq hd hr, GoMap.get_eq, he.lk]
    simp only [Spec.setStep, ← hk]
    cases p.toMap.get k <;> rfl
  | contains k => exact ⟨h, s, by simp [HSet.step, HSet.contains_eq hs, Spec.setStep], hs, .rfl' _ _⟩
  | len => exact ⟨h, s, by simp only [HSet.step, HSet.len, HMap.len_eq hs hsz]; rfl, hs, .rfl' _ _⟩
  | isEmpty =>
    exact ⟨h, s, by simp only [HSet.step, HSet.isEmpty, HMap.isEmpty, HMap.len_eq hs hsz]; rfl, hs, .rfl' _ _⟩
  | clear =>
    exact ⟨_, _, rfl, HMap.new_rep h, by simp,
      fun r hr _ => by simp [List.getElem?_append_left hr], .inr ⟨_, rfl, Nat.le_refl _⟩⟩

omit [LawfulGoKey κ] in
theorem Spec.setStep_size (o : SOp κ) (p : FSet κ) : (Spec.setStep o p).1.size ≤ p.size + 1 := by
  cases o <;> simp only [Spec.setStep, FSet.insert, FSet.remove, FSet.empty] <;> (try split) <;> omega

/-- C71: every history of Insert, Remove, Get, Contains, Len, IsEmpty and Clear on a set returns what the
mathematical set returns (Insert whether the value is new, Remove whether it was present), never panics, and
changes no other set.  (Lawful `==`; fewer than 2^64 elements.) -/
theorem C71_set_history (ops : List (SOp κ)) (h : SetHeap κ) (s : HSet) (p : FSet κ) (hs : s.Rep h p)
    (hsz : p.size + ops.length < 2 ^ 64) :
    ∃ h' s', runGo HSet.step ops (h, s) = .ok ((Spec.runMap Spec.setStep ops p).1, (h', s')) ∧
      s'.Rep h' (Spec.runMap Spec.setStep ops p).2 ∧ HMap.Frame h s.hashMap h' s'.hashMap := by
  induction ops generalizing h s p with
  | nil => exact ⟨h, s, rfl, hs, .rfl' _ _⟩
  | cons o ops ih =>
    simp only [List.length_cons] at hsz
    obtain ⟨h1, s1, e1, r1, f1⟩ := HSet.step_refines o h s p hs (by omega)
    have := Spec.setStep_size o p
    obtain ⟨h2, s2, e2, r2, f2⟩ := ih h1 s1 _ r1 (by omega)
    exact ⟨h2, s2, by simp [runGo, e1, e2, Spec.runMap], r2, f1.trans f2⟩

theorem C71_set_new (h : SetHeap κ) (n : Nat) :
    (HSet.new h).2.Rep (HSet.new h).1 FSet.empty ∧ HSet.withCapacity h n = HSet.new h :=
  ⟨HMap.new_rep h, rfl⟩

/-! ### Iteration -/

theorem HSet.Rep.enum {h : SetHeap κ} {s : HSet} {p : FSet κ} (hs : s.Rep h p) {ord : List (κ × Unit)}
    (ho : s.hashMap.Ranges h ord) : Enumerates ord p.toMap := by
  obtain ⟨r, es, hd, hr, he⟩ := hs
  rw [HMap.Ranges, HMap.load_eq hd hr] at ho
  exact he.perm ho

theorem Spec.Enumerates.any {ord : List (κ × Unit)} {p : FSet κ} (he : Enumerates ord p.toMap) (k : κ) :
    ((ord.map (·.1)).any fun v => GoKey.eq k v) = p.mem k := by
  have h := he.entries k ()
  simp only [FSet.toMap, and_true] at h
  cases hp : p.mem k with
  | true =>
    rw [hp] at h
    obtain ⟨e, he, hk⟩ := h.1 rfl
    rw [List.any_eq_true]
    exact ⟨e.1, List.mem_map.2 ⟨e, he, rfl⟩, hk⟩
  | false =>
    rw [hp] at h
    rw [List.any_eq_false]
    intro v hv hk
    obtain ⟨e, he, rfl⟩ := List.mem_map.1 hv
    exact absurd (h.2 ⟨e, he, hk⟩) (by simp)

theorem HSet.intoIter_data (g : Growth) (ord : List (κ × Unit)) :
    (HSet.intoIter g ord).vec.data = ord.map (·.1) ∧ (HSet.intoIter g ord).position = 0 := by
  have := pushAll_data g (fun e : κ × Unit => e.1) ord Vec.new
  exact ⟨by rw [HSet.intoIter]; simpa [Vec.new] using this, rfl⟩

/-- C71: whatever order Go iterates in, IntoIter yields each element exactly once and then None, and AsSlice
returns each element exactly once. -/
theorem C71_set_iter (g : Growth) (h : SetHeap κ) (s : HSet) (p : FSet κ) (hs : s.Rep h p)
    (ord : List (κ × Unit)) (ho : s.hashMap.Ranges h ord) :
    ∃ l : List κ, (l.Pairwise fun a b => GoKey.eq a b = false) ∧ l.length = p.size ∧
      (∀ k, p.mem k = l.any fun v => GoKey.eq k v) ∧ HSet.asSlice ord = l ∧
      ∀ n, (HSet.intoIter g ord).nexts n = .ok ((List.range n).map fun i => l[i]?) := by
  have he := hs.enum ho
  refine ⟨ord.map (·.1), by rw [List.pairwise_map]; exact he.distinct, by simpa [FSet.toMap] using he.size,
    fun k => (he.any k).symm, ?_, ?_⟩
  · have : ∀ (l : List (κ × Unit)) (acc : List κ),
        l.foldl (fun result e => result ++ [e.1]) acc = acc ++ l.map (·.1) := by
      intro l
      induction l with
      | nil => simp
      | cons a l ih => intro acc; simp [ih]
    simpa [HSet.asSlice] using this ord []
  · intro n
    rw [← (HSet.intoIter_data g ord).1]
    exact C53_vec_iter_next _ n

/-! ### Building new sets -/

/-- Only maps made after `h0` differ; the set under construction is the first of them. -/
def Grown (h0 h : SetHeap κ) : Prop := h.length = h0.length + 1 ∧ ∀ r, r < h0.length → h[r]? = h0[r]?

theorem Grown.rep {h0 h : SetHeap κ} (hg : Grown h0 h) {s : HSet} {p : FSet κ} (hs : s.Rep h0 p) :
    s.Rep h p := by
  obtain ⟨r, es, hd, hr, he⟩ := hs
  refine ⟨r, es, hd, ?_, he⟩
  rw [hg.2 r ?_, hr]
  rcases Nat.lt_or_ge r h0.length with h' | h'
  · exact h'
  · rw [List.getElem?_eq_none h'] at hr; cases hr

theorem Grown.insertE {h0 h : SetHeap κ} (hg : Grown h0 h) {p : FSet κ}
    (hs : (⟨⟨some h0.length⟩⟩ : HSet).Rep h p) (k : κ) :
    ∃ h', HSet.insertE ⟨⟨some h0.length⟩⟩ k h = (.ok ⟨⟨some h0.length⟩⟩, h') ∧ Grown h0 h' ∧
      (⟨⟨some h0.length⟩⟩ : HSet).Rep h' (p.insert k) := by
  obtain ⟨h', h1, h2, h3, h4⟩ := HSet.insert_eq hs k
  refine ⟨h', by simp [HSet.insertE, h1], ⟨h4.trans hg.1, ?_⟩, h2⟩
  intro r hr
  rw [h3.others r (by rw [hg.1]; omega) (by simp; omega), hg.2 r hr]

theorem Grown.new (h0 : SetHeap κ) : Grown h0 (HSet.new h0).1 :=
  ⟨by simp [HSet.new, HMap.new], fun r hr => by simp [HSet.new, HMap.new, List.getElem?_append_left hr]⟩

/-- Add the elements of a list that satisfy `c`. -/
def Spec.FSet.addAll (c : κ → Bool) (p : FSet κ) (l : List κ) : FSet κ :=
  l.foldl (fun p v => if c v then p.insert v else p) p

theorem Spec.FSet.addAll_mem (c : κ → Bool) (p : FSet κ) (l : List κ) (k : κ) :
    (p.addAll c l).mem k = (p.mem k || l.any fun v => c v && GoKey.eq k v) := by
  induction l generalizing p with
  | nil => simp [FSet.addAll]
  | cons a l ih =>
    have : p.addAll c (a :: l) = (if c a then p.insert a else p).addAll c l := rfl
    rw [this, ih, List.any_cons]
    cases c a with
    | false => simp
    | true =>
      simp only [if_true, FSet.insert, Bool.true_and]
      cases GoKey.eq k a <;> cases p.mem k <;> rfl

theorem HSet.addLoop (h0 : SetHeap κ) (c : κ → Bool) (step : HSet → κ → Eff (SetHeap κ) HSet)
    (hstep : ∀ h p v, Grown h0 h → (⟨⟨some h0.length⟩⟩ : HSet).Rep h p →
      ∃ h', step ⟨⟨some h0.length⟩⟩ v h = (.ok ⟨⟨some h0.length⟩⟩, h') ∧ Grown h0 h' ∧
        (⟨⟨some h0.length⟩⟩ : HSet).Rep h' (if c v then p.insert v else p))
    (l : List κ) (h : SetHeap κ) (p : FSet κ) (hg : Grown h0 h) (hs : (⟨⟨some h0.length⟩⟩ : HSet).Rep h p) :
    ∃ h', foldE step ⟨⟨some h0.length⟩⟩ l h = (.ok ⟨⟨some h0.length⟩⟩, h') ∧ Grown h0 h' ∧
      (⟨⟨some h0.length⟩⟩ : HSet).Rep h' (p.addAll c l) := by
  induction l generalizing h p with
  | nil => exact ⟨h, rfl, hg, hs⟩
  | cons a l ih =>
    obtain ⟨h1, e1, g1, r1⟩ := hstep h p a hg hs
    obtain ⟨h2, e2, g2, r2⟩ := ih h1 _ g1 r1
    exact ⟨h2, by simp only [foldE, Eff.bind_run, e1, e2], g2, r2⟩

theorem HSet.drain_intoIter (g : Growth) (step : HSet → κ → Eff (SetHeap κ) HSet) (ord : List (κ × Unit))
    (s : HSet) :
    VecIter.drain step (HSet.intoIter g ord).rounds (HSet.intoIter g ord) s =
      foldE step s (ord.map (·.1)) >>= fun r => pure (some r) := by
  obtain ⟨h1, h2⟩ := HSet.intoIter_data g ord
  have := VecIter.drain_eq step (HSet.intoIter g ord).vec (HSet.intoIter g ord).rounds 0 s
    (by simp [VecIter.rounds]) (by simp [VecIter.rounds])
  rw [h1, List.drop_zero] at this
  rw [← this]
  rfl

theorem HSet.containsStep (h0 : SetHeap κ) (b : HSet) (q : FSet κ) (hb : b.Rep h0 q) (neg : Bool)
    (h : SetHeap κ) (p : FSet κ) (v : κ) (hg : Grown h0 h) (hs : (⟨⟨some h0.length⟩⟩ : HSet).Rep h p) :
    ∃ h', (do let c ← b.containsE v
              if (c ^^ neg) then HSet.insertE ⟨⟨some h0.length⟩⟩ v else pure ⟨⟨some h0.length⟩⟩ :
            Eff (SetHeap κ) HSet) h = (.ok ⟨⟨some h0.length⟩⟩, h') ∧ Grown h0 h' ∧
        (⟨⟨some h0.length⟩⟩ : HSet).Rep h' (if (q.mem v ^^ neg) then p.insert v else p) := by
  simp only [Eff.bind_run, HSet.containsE, HSet.contains_eq (hg.rep hb)]
  cases (q.mem v ^^ neg) with
  | true => exact hg.insertE hs v
  | false => exact ⟨h, rfl, hg, hs⟩

/-- C71: Intersection gives, in whatever order Go iterates, a new set with exactly the common elements; no
existing set changes. -/
theorem C71_set_intersection (g : Growth) (h : SetHeap κ) (a b : HSet) (p q : FSet κ) (ha : a.Rep h p)
    (hb : b.Rep h q) (ord : List (κ × Unit)) (ho : a.hashMap.Ranges h ord) :
    ∃ h' n, HSet.intersection g b ord h = (.ok (some ⟨⟨some h.length⟩⟩), h') ∧ Grown h h' ∧
      (⟨⟨some h.length⟩⟩ : HSet).Rep h' ⟨fun k => p.mem k && q.mem k, n⟩ := by
  obtain ⟨h', e1, g1, r1⟩ := HSet.addLoop h q.mem
    (fun (newSet : HSet) v => do
      let c ← b.containsE v
      if c then newSet.insertE v else pure newSet)
    (by
      intro h1 p1 v hg hs
      have := HSet.containsStep h b q hb false h1 p1 v hg hs
      simpa only [Bool.xor_false] using this)
    (ord.map (·.1)) _ FSet.empty (Grown.new h) (C71_set_new h 0).1
  refine ⟨h', (FSet.empty.addAll q.mem (ord.map (·.1))).size, ?_, g1, ?_⟩
  · unfold HSet.intersection
    simp only [HSet.drain_intoIter, Eff.bind_run, HSet.newE]
    rw [show (HSet.new h).2 = ⟨⟨some h.length⟩⟩ from rfl, e1]
    rfl
  · have he := ha.enum ho
    have hm : (FSet.empty.addAll q.mem (ord.map (·.1))).mem = fun k => p.mem k && q.mem k := by
      funext k
      rw [FSet.addAll_mem, ← he.any k, Bool.eq_iff_iff]
      simp only [FSet.empty, Bool.false_or, List.any_eq_true, Bool.and_eq_true]
      constructor
      · rintro ⟨x, hx, hq, hk⟩
        exact ⟨⟨x, hx, hk⟩, by rw [hb.resp hk]; exact hq⟩
      · rintro ⟨⟨x, hx, hk⟩, hq⟩
        exact ⟨x, hx, by rw [← hb.resp hk]; exact hq, hk⟩
    exact r1.congr_mem hm

/-- C71: Union gives a new set with exactly the elements of either. -/
theorem C71_set_union (g : Growth) (h : SetHeap κ) (a b : HSet) (p q : FSet κ) (ha : a.Rep h p)
    (hb : b.Rep h q) (ord1 ord2 : List (κ × Unit)) (ho1 : a.hashMap.Ranges h ord1)
    (ho2 : b.hashMap.Ranges h ord2) :
    ∃ h' n, HSet.union g ord1 ord2 h = (.ok (some ⟨⟨some h.length⟩⟩), h') ∧ Grown h h' ∧
      (⟨⟨some h.length⟩⟩ : HSet).Rep h' ⟨fun k => p.mem k || q.mem k, n⟩ := by
  have hstep : ∀ (h1 : SetHeap κ) p1 v, Grown h h1 → (⟨⟨some h.length⟩⟩ : HSet).Rep h1 p1 →
      ∃ h', (fun (newSet : HSet) v => newSet.insertE v) ⟨⟨some h.length⟩⟩ v h1 =
        (.ok ⟨⟨some h.length⟩⟩, h') ∧ Grown h h' ∧
        (⟨⟨some h.length⟩⟩ : HSet).Rep h' (if (fun _ : κ => true) v then p1.insert v else p1) :=
    fun h1 p1 v hg hs => hg.insertE hs v
  obtain ⟨h1, e1, g1, r1⟩ := HSet.addLoop h (fun _ => true) _ hstep (ord1.map (·.1)) _ FSet.empty
    (Grown.new h) (C71_set_new h 0).1
  obtain ⟨h2, e2, g2, r2⟩ := HSet.addLoop h (fun _ => true) _ hstep (ord2.map (·.1)) _ _ g1 r1
  refine ⟨h2, ((FSet.empty.addAll (fun _ => true) (ord1.map (·.1))).addAll (fun _ => true)
    (ord2.map (·.1))).size, ?_, g2, ?_⟩
  · unfold HSet.union
    simp only [HSet.drain_intoIter, Eff.bind_run, HSet.newE]
    rw [show (HSet.new h).2 = ⟨⟨some h.length⟩⟩ from rfl, e1]
    simp only [Eff.pure_run, Eff.bind_run, e2]
  · have hm : ((FSet.empty.addAll (fun _ => true) (ord1.map (·.1))).addAll (fun _ => true)
        (ord2.map (·.1))).mem = fun k => p.mem k || q.mem k := by
      funext k
      rw [FSet.addAll_mem, FSet.addAll_mem, ← (ha.enum ho1).any k, ← (hb.enum ho2).any k]
      simp [FSet.empty]
    exact r2.congr_mem hm

/-- C71: SymmetricDifference gives a new set with exactly the elements of one but not both. -/
theorem C71_set_symmetricDifference (g : Growth) (h : SetHeap κ) (a b : HSet) (p q : FSet κ) (ha : a.Rep h p)
    (hb : b.Rep h q) (ord1 ord2 : List (κ × Unit)) (ho1 : a.hashMap.Ranges h ord1)
    (ho2 : b.hashMap.Ranges h ord2) :
    ∃ h' n, HSet.symmetricDifference g a b ord1 ord2 h = (.ok (some ⟨⟨some h.length⟩⟩), h') ∧ Grown h h' ∧
      (⟨⟨some h.length⟩⟩ : HSet).Rep h' ⟨fun k => p.mem k != q.mem k, n⟩ := by
  have hstep : ∀ (b : HSet) (q : FSet κ), b.Rep h q → ∀ (h1 : SetHeap κ) p1 v, Grown h h1 →
      (⟨⟨some h.length⟩⟩ : HSet).Rep h1 p1 →
      ∃ h', (fun (newSet : HSet) v => (do
        let c ← b.containsE v
        if !c then newSet.insertE v else pure newSet : Eff (SetHeap κ) HSet)) ⟨⟨some h.length⟩⟩ v h1 =
        (.ok ⟨⟨some h.length⟩⟩, h') ∧ Grown h h' ∧
        (⟨⟨some h.length⟩⟩ : HSet).Rep h' (if (fun v : κ => !q.mem v) v then p1.insert v else p1) := by
    intro b q hb h1 p1 v hg hs
    have := HSet.containsStep h b q hb true h1 p1 v hg hs
    simpa only [Bool.xor_true] using this
  obtain ⟨h1, e1, g1, r1⟩ := HSet.addLoop h (fun v => !q.mem v)
    (fun (newSet : HSet) v => do
      let c ← b.containsE v
      if !c then newSet.insertE v else pure newSet) (hstep b q hb) (ord1.map (·.1)) _ FSet.empty
    (Grown.new h) (C71_set_new h 0).1
  obtain ⟨h2, e2, g2, r2⟩ := HSet.addLoop h (fun v => !p.mem v)
    (fun (newSet : HSet) v => do
      let c ← a.containsE v
      if !c then newSet.insertE v else pure newSet) (hstep a p ha) (ord2.map (·.1)) _ _ g1 r1
  refine ⟨h2, ((FSet.empty.addAll (fun v => !q.mem v) (ord1.map (·.1))).addAll (fun v => !p.mem v)
    (ord2.map (·.1))).size, ?_, g2, ?_⟩
  · unfold HSet.symmetricDifference
    simp only [HSet.drain_intoIter, Eff.bind_run, HSet.newE]
    rw [show (HSet.new h).2 = ⟨⟨some h.length⟩⟩ from rfl, e1]
    simp only [Eff.pure_run, Eff.bind_run, e2]
  · have aux : ∀ {a b : HSet} {p q : FSet κ} {ord : List (κ × Unit)}, a.Rep h p → b.Rep h q →
        a.hashMap.Ranges h ord → ∀ k,
        ((ord.map (·.1)).any fun v => !q.mem v && GoKey.eq k v) = (p.mem k && !q.mem k) := by
      intro a b p q ord ha hb ho k
      rw [← (ha.enum ho).any k, Bool.eq_iff_iff]
      simp only [List.any_eq_true, Bool.and_eq_true]
      constructor
      · rintro ⟨x, hx, hq, hk⟩
        exact ⟨⟨x, hx, hk⟩, by rw [hb.resp hk]; exact hq⟩
      · rintro ⟨⟨x, hx, hk⟩, hq⟩
        exact ⟨x, hx, by rw [← hb.resp hk]; exact hq, hk⟩
    have hm : ((FSet.empty.addAll (fun v => !q.mem v) (ord1.map (·.1))).addAll (fun v => !p.mem v)
        (ord2.map (·.1))).mem = fun k => p.mem k != q.mem k := by
      funext k
      rw [FSet.addAll_mem, FSet.addAll_mem, aux ha hb ho1, aux hb ha ho2]
      simp only [FSet.empty]
      cases p.mem k <;> cases q.mem k <;> rfl
    exact r2.congr_mem hm

/-- C71: HashSetFromSlice gives a new set with exactly the elements of the slice. -/
theorem C71_set_fromSlice (h : SetHeap κ) (slice : List κ) :
    ∃ h' n, HSet.fromSlice slice h = (.ok ⟨⟨some h.length⟩⟩, h') ∧ Grown h h' ∧
      (⟨⟨some h.length⟩⟩ : HSet).Rep h' ⟨fun k => slice.any fun v => GoKey.eq k v, n⟩ := by
  have hloop : ∀ (l : List κ) (s : HSet), HSet.fromSliceLoop l s = foldE (fun s v => s.insertE v) s l := by
    intro l
    induction l with
    | nil => intro s; rfl
    | cons a l ih =>
      intro s
      simp only [HSet.fromSliceLoop, foldE]
      congr 1
      funext s'
      exact ih s'
  obtain ⟨h1, e1, g1, r1⟩ := HSet.addLoop h (fun _ => true) (fun s v => s.insertE v)
    (fun h1 p1 v hg hs => hg.insertE hs v) slice _ FSet.empty (Grown.new h) (C71_set_new h 0).1
  refine ⟨h1, (FSet.empty.addAll (fun _ => true) slice).size, ?_, g1, ?_⟩
  · unfold HSet.fromSlice
    simp only [hloop, Eff.bind_run, HSet.newE]
    rw [show (HSet.new h).2 = ⟨⟨some h.length⟩⟩ from rfl, e1]
  · have hm : (FSet.empty.addAll (fun _ => true) slice).mem = fun k => slice.any fun v => GoKey.eq k v := by
      funext k
      rw [FSet.addAll_mem]
      simp [FSet.empty]
    exact r1.congr_mem hm

/-- C71: Clone gives a new set with the same elements (key clones have to be equal to the key); a set of
keys without Clone can be cloned only if it is empty. -/
theorem C71_set_clone (ck : κ → κ) (hck : ∀ k, GoKey.eq (ck k) k = true) (h : SetHeap κ) (a : HSet)
    (p : FSet κ) (ha : a.Rep h p) (ord : List (κ × Unit)) (ho : a.hashMap.Ranges h ord) :
    (∃ h', HSet.clone (some ck) ord h = (.ok ⟨⟨some h.length⟩⟩, h') ∧ Grown h h' ∧
      (⟨⟨some h.length⟩⟩ : HSet).Rep h' p) ∧
    (0 < p.size → (HSet.clone none ord h).1 = .error .explicit) := by
  have hloop : ∀ (l : List (κ × Unit)) (s : HSet),
      HSet.cloneLoop (some ck) l s = foldE (fun s v => s.insertE v) s (l.map fun e => ck e.1) := by
    intro l
    induction l with
    | nil => intro s; rfl
    | cons a l ih =>
      intro s
      simp only [HSet.cloneLoop, foldE, List.map_cons]
      congr 1
      funext s'
      exact ih s'
  have he := ha.enum ho
  constructor
  · obtain ⟨h1, e1, g1, r1⟩ := HSet.addLoop h (fun _ => true) (fun s v => s.insertE v)
      (fun h1 p1 v hg hs => hg.insertE hs v) (ord.map fun e => ck e.1) _ FSet.empty (Grown.new h)
      (C71_set_new h 0).1
    refine ⟨h1, ?_, g1, ?_⟩
    · unfold HSet.clone
      simp only [hloop, Eff.bind_run, HSet.newE]
      rw [show (HSet.new h).2 = ⟨⟨some h.length⟩⟩ from rfl, e1]
    · have hm : (FSet.empty.addAll (fun _ => true) (ord.map fun e => ck e.1)).mem = p.mem := by
        funext k
        rw [FSet.addAll_mem, ← he.any k]
        simp only [FSet.empty, Bool.false_or, List.any_map, Bool.true_and]
        congr 1
        funext e
        exact GoKey.eq_right (hck e.1) k
      have hsz : (FSet.empty.addAll (fun _ => true) (ord.map fun e => ck e.1)).size = p.size := by
        obtain ⟨_, es, _, _, hes⟩ := r1
        refine C69_map_size hes he ?_
        simp only [FSet.toMap, hm]
      have : FSet.empty.addAll (fun _ => true) (ord.map fun e => ck e.1) = p := by
        cases p; simp only at hm hsz; rw [← hm, ← hsz]
      rw [← this]; exact r1
  · intro h0
    have := he.size
    cases ord with
    | nil => simp [FSet.toMap] at this; omega
    | cons e ord => rfl

/-! ### Comparisons -/

theorem keys_length_le {ν μ : Type} (l : List (κ × ν)) (m : List (κ × μ))
    (hl : l.Pairwise fun a b => GoKey.eq a.1 b.1 = false)
    (hsub : ∀ e ∈ l, ∃ e' ∈ m, GoKey.eq e.1 e'.1 = true) : l.length ≤ m.length := by
  induction l generalizing m with
  | nil => simp
  | cons a l ih =>
    obtain ⟨h1, h2⟩ := List.pairwise_cons.1 hl
    obtain ⟨b, hb, hab⟩ := hsub a List.mem_cons_self
    obtain ⟨m1, m2, rfl⟩ := List.append_of_mem hb
    have := ih (m1 ++ m2) h2 (by
      intro e he
      obtain ⟨c, hc, hec⟩ := hsub e (List.mem_cons_of_mem _ he)
      rcases List.mem_append.1 hc with hc | hc
      · exact ⟨c, List.mem_append_left _ hc, hec⟩
      · rcases List.mem_cons.1 hc with rfl | hc
        · have := h1 e he
          rw [GoKey.eq_left hab, GoKey.eq_comm, hec] at this
          cases this
        · exact ⟨c, List.mem_append_right _ hc, hec⟩)
    simp at this ⊢
    omega

theorem HSet.loops_eq (h : SetHeap κ) (b : HSet) (q : FSet κ) (hb : b.Rep h q) (v : Vec κ) (fuel i : Nat)
    (hf : v.len < i + fuel) :
    HSet.subsetLoop h b fuel ⟨v, i⟩ = .ok (some ((v.data.drop i).all q.mem)) ∧
    HSet.disjointLoop h b fuel ⟨v, i⟩ = .ok (some ((v.data.drop i).all fun k => !q.mem k)) ∨ fuel = 0 := by
  induction fuel generalizing i with
  | zero => right; rfl
  | succ fuel ih =>
    left
    by_cases hi : i < v.len
    · have hf' : fuel ≠ 0 := by omega
      obtain ⟨ih1, ih2⟩ := (ih (i + 1) (by omega)).resolve_right hf'
      simp only [HSet.subsetLoop, HSet.disjointLoop, VecIter.next_ok v i hi, Go.bind_ok, Opt.isNone, Opt.some,
        Bool.false_eq_true, if_false, Opt.unwrap, deref_some, HSet.contains_eq hb, ih1, ih2]
      rw [List.drop_eq_getElem_cons hi, List.all_cons, List.all_cons]
      cases q.mem v.data[i] <;> exact ⟨rfl, rfl⟩
    · have hi' : v.len ≤ i := by omega
      simp only [HSet.subsetLoop, HSet.disjointLoop, VecIter.next_end v i hi', Go.bind_ok, Opt.isNone, Opt.none,
        if_true, List.drop_of_length_le hi']
      exact ⟨rfl, rfl⟩

theorem HSet.loops_intoIter (g : Growth) (h : SetHeap κ) (b : HSet) (q : FSet κ) (hb : b.Rep h q)
    (ord : List (κ × Unit)) :
    HSet.subsetLoop h b (HSet.intoIter g ord).rounds (HSet.intoIter g ord) =
      .ok (some ((ord.map (·.1)).all q.mem)) ∧
    HSet.disjointLoop h b (HSet.intoIter g ord).rounds (HSet.intoIter g ord) =
      .ok (some ((ord.map (·.1)).all fun k => !q.mem k)) := by
  obtain ⟨h1, h2⟩ := HSet.intoIter_data g ord
  have := (HSet.loops_eq h b q hb (HSet.intoIter g ord).vec (HSet.intoIter g ord).rounds 0
    (by simp [VecIter.rounds])).resolve_right (by simp [VecIter.rounds])
  rw [h1, List.drop_zero] at this
  exact this

theorem Spec.Enumerates.all {ord : List (κ × Unit)} {p : FSet κ} (he : Enumerates ord p.toMap) (c : κ → Bool)
    (hc : ∀ k k', GoKey.eq k k' = true → c k = c k') :
    ((ord.map (·.1)).all c) = true ↔ ∀ k, p.mem k = true → c k = true := by
  rw [List.all_eq_true]
  constructor
  · intro hall k hk
    rw [← he.any k, List.any_eq_true] at hk
    obtain ⟨v, hv, hkv⟩ := hk
    rw [hc k v hkv]; exact hall v hv
  · intro hall v hv
    apply hall
    rw [← he.any v, List.any_eq_true]
    exact ⟨v, hv, LawfulGoKey.refl v⟩

theorem size_le_of_subset {ord eb : List (κ × Unit)} {p q : FSet κ} (he : Enumerates ord p.toMap)
    (hb : Enumerates eb q.toMap) (hsub : ∀ k, p.mem k = true → q.mem k = true) : p.size ≤ q.size := by
  have := keys_length_le ord eb he.distinct (by
    intro e hm
    have : q.mem e.1 = true := by
      apply hsub
      rw [← he.any, List.any_eq_true]
      exact ⟨e.1, List.mem_map.2 ⟨e, hm, rfl⟩, LawfulGoKey.refl _⟩
    rw [← hb.any, List.any_eq_true] at this
    obtain ⟨v, hv, hk⟩ := this
    obtain ⟨e', he', rfl⟩ := List.mem_map.1 hv
    exact ⟨e', he', hk⟩)
  rw [he.size, hb.size] at this
  exact this

/-- C71: IsSubset and IsDisjoint decide inclusion and disjointness, IsSuperset is IsSubset with the sets
exchanged, Eq decides whether both sets have the same elements, in whatever order Go iterates.  (Fewer than
2^64 elements.) -/
theorem C71_set_comparisons (g : Growth) (h : SetHeap κ) (a b : HSet) (p q : FSet κ) (ha : a.Rep h p)
    (hb : b.Rep h q) (hp : p.size < 2 ^ 64) (hq : q.size < 2 ^ 64) (ord : List (κ × Unit))
    (ho : a.hashMap.Ranges h ord) :
    (∃ r, HSet.isSubset g h a b ord = .ok (some r) ∧ (r = true ↔ ∀ k, p.mem k = true → q.mem k = true)) ∧
    (∃ r, HSet.isSuperset g h b a ord = .ok (some r) ∧ (r = true ↔ ∀ k, p.mem k = true → q.mem k = true)) ∧
    (∃ r, HSet.isDisjoint g h b ord = .ok (some r) ∧
      (r = true ↔ ∀ k, ¬ (p.mem k = true ∧ q.mem k = true))) ∧
    (∃ r, HSet.eq h a b ord = .ok r ∧ (r = true ↔ ∀ k, p.mem k = q.mem k)) := by
  have he := ha.enum ho
  obtain ⟨l1, l2⟩ := HSet.loops_intoIter g h b q hb ord
  have la : a.len h = p.size := HMap.len_eq ha hp
  have lb : b.len h = q.size := HMap.len_eq hb hq
  have la' : a.hashMap.len h = p.size := la
  have lb' : b.hashMap.len h = q.size := lb
  have hq' := hb
  obtain ⟨rb, eb, hdb, hrb, heb⟩ := hq'
  have hsub : ∃ r, HSet.isSubset g h a b ord = .ok (some r) ∧
      (r = true ↔ ∀ k, p.mem k = true → q.mem k = true) := by
    unfold HSet.isSubset
    rw [la, lb, l1]
    by_cases hs : p.size > q.size
    · rw [if_pos hs]
      refine ⟨false, rfl, ?_⟩
      simp only [Bool.false_eq_true, false_iff]
      intro hn
      have := size_le_of_subset he heb hn
      omega
    · rw [if_neg hs]
      exact ⟨_, rfl, he.all q.mem fun k k' hk => hb.resp hk⟩
  refine ⟨hsub, hsub, ⟨_, l2, ?_⟩, ?_⟩
  · rw [he.all (fun k => !q.mem k) (fun k k' hk => by rw [hb.resp hk])]
    constructor
    · rintro h k ⟨h1, h2⟩; have := h k h1; rw [h2] at this; cases this
    · intro h k h1
      cases h2 : q.mem k with
      | false => rfl
      | true => exact absurd ⟨h1, h2⟩ (h k)
  · unfold HSet.eq
    rw [la', lb']
    have hloop : ∀ l : List (κ × Unit), HSet.eqLoop h b l = .ok ((l.map (·.1)).all q.mem) := by
      intro l
      induction l with
      | nil => rfl
      | cons e l ih =>
        obtain ⟨k, u⟩ := e
        simp only [HSet.eqLoop, HSet.contains_eq hb, Go.bind_ok, ih, List.map_cons, List.all_cons]
        cases q.mem k <;> rfl
    by_cases hs : p.size = q.size
    · rw [if_neg (by simpa using hs), hloop]
      refine ⟨_, rfl, ?_⟩
      rw [he.all q.mem (fun k k' hk => hb.resp hk)]
      constructor
      · intro hall k
        cases hpk : p.mem k with
        | true => exact (hall k hpk).symm
        | false =>
          cases hqk : q.mem k with
          | false => rfl
          | true =>
            exfalso
            rw [← heb.any, List.any_eq_true] at hqk
            obtain ⟨v, hv, hkv⟩ := hqk
            obtain ⟨e', he', rfl⟩ := List.mem_map.1 hv
            obtain ⟨e, hm, hee⟩ := keys_pigeonhole ord eb he.distinct (by
              intro e hm
              have : q.mem e.1 = true := by
                apply hall
                rw [← he.any, List.any_eq_true]
                exact ⟨e.1, List.mem_map.2 ⟨e, hm, rfl⟩, LawfulGoKey.refl _⟩
              rw [← heb.any, List.any_eq_true] at this
              obtain ⟨v, hv, hk⟩ := this
              obtain ⟨e', he', rfl⟩ := List.mem_map.1 hv
              exact ⟨e', he', hk⟩) (by rw [heb.size, he.size]; simp only [FSet.toMap]; omega) e' he'
            have : p.mem k = true := by
              rw [← he.any, List.any_eq_true]
              exact ⟨e.1, List.mem_map.2 ⟨e, hm, rfl⟩, by rw [GoKey.eq_left hkv, GoKey.eq_comm]; exact hee⟩
            rw [hpk] at this; cases this
      · intro hall k hk; rw [← hall k]; exact hk
    · rw [if_pos hs]
      refine ⟨false, rfl, ?_⟩
      simp only [Bool.false_eq_true, false_iff]
      intro hall
      have h1 := size_le_of_subset he heb (fun k hk => by rw [← hall k]; exact hk)
      have h2 := size_le_of_subset heb he (fun k hk => by rw [hall k]; exact hk)
      omega

end

/-- Two sets with a common element, and Go's ranges in different orders. -/
example : let h : SetHeap Int := [[(1, ()), (2, ()), (5, ())], [(1, ()), (2, ()), (3, ())]]
    HSet.intersection doubling ⟨⟨some 1⟩⟩ [(5, ()), (1, ()), (2, ())] h =
      (.ok (some ⟨⟨some 2⟩⟩), h ++ [[(1, ()), (2, ())]]) ∧
    HSet.union doubling [(5, ()), (1, ()), (2, ())] [(3, ()), (2, ()), (1, ())] h =
      (.ok (some ⟨⟨some 2⟩⟩), h ++ [[(5, ()), (1, ()), (2, ()), (3, ())]]) ∧
    HSet.symmetricDifference doubling ⟨⟨some 0⟩⟩ ⟨⟨some 1⟩⟩ [(5, ()), (1, ()), (2, ())]
      [(3, ()), (2, ()), (1, ())] h = (.ok (some ⟨⟨some 2⟩⟩), h ++ [[(5, ()), (3, ())]]) ∧
    HSet.isSubset doubling h ⟨⟨some 0⟩⟩ ⟨⟨some 1⟩⟩ [(5, ()), (1, ()), (2, ())] = .ok (some false) ∧
    HSet.isDisjoint doubling h ⟨⟨some 1⟩⟩ [(5, ()), (1, ()), (2, ())] = .ok (some false) ∧
    HSet.eq h ⟨⟨some 0⟩⟩ ⟨⟨some 1⟩⟩ [(5, ()), (1, ()), (2, ())] = .ok false ∧
    HSet.eq h ⟨⟨some 0⟩⟩ ⟨⟨some 0⟩⟩ [(5, ()), (1, ()), (2, ())] = .ok true := by decide
example : (runGo HSet.step [.insert (1 : Int), .insert 1, .insert 2, .remove 1, .contains 1, .get 2, .len]
    (HSet.new [])).toOption.map (·.1) =
    some [.bool true, .bool false, .bool true, .bool true, .bool false, .opt (some 2), .nat 1] := by decide
example : (⟨⟨some 0⟩⟩ : HSet).Rep ([[(1, ()), (2, ())]] : SetHeap Int) ⟨fun k => k == 1 || k == 2, 2⟩ := by
  refine ⟨0, _, rfl, rfl, by simp [GoKey.eq], ?_, rfl⟩
  intro k v
  simp only [FSet.toMap, GoKey.eq, List.mem_cons, List.not_mem_nil, or_false, exists_eq_or_imp,
    exists_eq_left, and_true, beq_iff_eq, Bool.or_eq_true]
  split <;> simp_all

/-! ### C97 -/

/-- Call Next `n` times and keep the iterator. -/
def VecIter.advance {α : Type} : Nat → VecIter α → Go (VecIter α)
  | 0, it => .ok it
  | n + 1, it => do
    let (it, _) ← it.next
    VecIter.advance n it

theorem VecIter.advance_eq {α : Type} (v : Vec α) (n p : Nat) (h : p + n ≤ v.len) :
    VecIter.advance n ⟨v, p⟩ = .ok ⟨v, p + n⟩ := by
  induction n generalizing p with
  | zero => rfl
  | succ n ih =>
    simp only [VecIter.advance, VecIter.next_ok v p (by omega), Go.bind_ok]
    rw [ih (p + 1) (by omega)]
    congr 2
    omega

/-- C97, full property: on a HashMap or HashSet iterator from which `n` elements have been taken, Map,
Filter, Fold, CollectToVec and Rev process exactly the remaining elements.  Proved for the key iterator (the
others have the same code), in every order: Map, Filter and Fold always; CollectToVec and Rev exactly for
`n = 0`.  Missing: CollectToVec and Rev of an advanced iterator, see `C97_hash_iter_fails`. -/
theorem C97_hash_iter_partial {σ κ ν : Type} [Inhabited κ] (g : Growth) (ord : List (κ × ν)) (n : Nat)
    (hn : n ≤ ord.length) (hlen : ord.length < 2 ^ 63) (f : κ → κ) (q : κ → Bool) (z : κ) (op : κ → κ → κ)
    (s : σ) :
    ∃ it, VecIter.advance n (HMap.keys g ord) = .ok it ∧
      (∃ c, it.map g (fun a => pure (f a)) s =
        (.ok (some (Vec.intoIter ⟨((ord.map (·.1)).drop n).map f, c⟩)), s)) ∧
      (∃ c, it.filter g (fun a => pure (q a)) s =
        (.ok (some (Vec.intoIter ⟨((ord.map (·.1)).drop n).filter q, c⟩)), s)) ∧
      it.fold z (fun a b => pure (op a b)) s = (.ok (some (((ord.map (·.1)).drop n).foldl op z)), s) ∧
      ((HMap.collectToVec it).data = (ord.map (·.1)).drop n ↔ n = 0) ∧
      ((∃ c, it.rev = .ok (some (Vec.intoIter ⟨((ord.map (·.1)).drop n).reverse, c⟩))) ↔ n = 0) := by
  have hd : (HMap.keys g ord).vec.data = ord.map (·.1) := by
    have := pushAll_data g (fun e : κ × ν => e.1) ord Vec.new
    rw [HMap.keys]; simpa [Vec.new] using this
  have hl : (HMap.keys g ord).vec.len = ord.length := by simp [Vec.len, hd]
  refine ⟨⟨(HMap.keys g ord).vec, n⟩, ?_, ?_⟩
  · have := VecIter.advance_eq (HMap.keys g ord).vec n 0 (by omega)
    rw [Nat.zero_add] at this
    exact this
  · obtain ⟨h1, h2, h3⟩ := C53_vec_iter_adapters_pure g (HMap.keys g ord).vec n f q z op s
    have h4 := C54_rev_partial (HMap.keys g ord).vec n (by omega) (by omega)
    rw [hd] at h1 h2 h3 h4
    refine ⟨h1, h2, h3, ?_, h4⟩
    rw [HMap.collectToVec, hd]
    constructor
    · intro h
      have := congrArg List.length h
      simp at this
      omega
    · rintro rfl; rfl

/-- C97 is violated by every advanced iterator: CollectToVec returns also the elements already taken, and
Rev yields zero values first. -/
theorem C97_hash_iter_fails {κ ν : Type} [Inhabited κ] (g : Growth) (ord : List (κ × ν)) (n : Nat)
    (h0 : 0 < n) (hn : n ≤ ord.length) (hlen : ord.length < 2 ^ 63) :
    ∃ it, VecIter.advance n (HMap.keys g ord) = .ok it ∧
      (HMap.collectToVec it).data = ord.map (·.1) ∧
      ∃ r : VecIter κ, it.rev = .ok (some r) ∧ r.next.toOption.map (·.2.value) = some (some default) := by
  have hd : (HMap.keys g ord).vec.data = ord.map (·.1) := by
    have := pushAll_data g (fun e : κ × ν => e.1) ord Vec.new
    rw [HMap.keys]; simpa [Vec.new] using this
  have hl : (HMap.keys g ord).vec.len = ord.length := by simp [Vec.len, hd]
  refine ⟨⟨(HMap.keys g ord).vec, n⟩, ?_, hd, ?_⟩
  · have := VecIter.advance_eq (HMap.keys g ord).vec n 0 (by omega)
    rw [Nat.zero_add] at this
    exact this
  · obtain ⟨r, h1, h2, _⟩ := C54_rev_fails (HMap.keys g ord).vec n h0 (by omega) (by omega)
    exact ⟨r, h1, h2⟩

example : (VecIter.advance 1 (HMap.keys doubling [((3 : Int), 30), (1, 10), (2, 20)])).toOption.map
      (fun it => (HMap.collectToVec it).data) = some [3, 1, 2] ∧
    ((VecIter.advance 1 (HMap.keys doubling [((3 : Int), 30), (1, 10), (2, 20)])).toOption.bind
      (fun it => it.rev.toOption)).map (fun r => r.map (·.vec.data)) = some (some [0, 2, 1]) := by decide

end Gost
