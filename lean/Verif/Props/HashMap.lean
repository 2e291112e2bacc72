import Verif.Spec.Map
import Verif.Props.VecSearch
/-
Properties C69, C70, C95 and C96: HashMap as a finite map, its iterators, Clone, Eq, and handles.
-/
set_option linter.unusedSectionVars false
namespace Gost
open Spec

section
variable {κ ν : Type} [GoKey κ]

/-! ### Entries of one Go map -/

theorem GoKey.eq_right [LawfulGoKey κ] {a b : κ} (h : GoKey.eq a b = true) (c : κ) :
    GoKey.eq c a = GoKey.eq c b := by
  rw [Bool.eq_iff_iff]
  exact ⟨fun h' => LawfulGoKey.trans _ _ _ h' h,
    fun h' => LawfulGoKey.trans _ _ _ h' (LawfulGoKey.symm _ _ h)⟩

theorem GoKey.eq_comm [LawfulGoKey κ] (a b : κ) : GoKey.eq a b = GoKey.eq b a := by
  rw [Bool.eq_iff_iff]
  exact ⟨LawfulGoKey.symm _ _, LawfulGoKey.symm _ _⟩

theorem GoKey.eq_left [LawfulGoKey κ] {a b : κ} (h : GoKey.eq a b = true) (c : κ) :
    GoKey.eq a c = GoKey.eq b c := by
  rw [GoKey.eq_comm a, GoKey.eq_comm b, GoKey.eq_right h]

/-- What a key is looked up as. -/
def GoMap.lk (m : GoMap κ ν) (k : κ) : Option ν := (m.find? fun e => GoKey.eq k e.1).map (·.2)

theorem GoMap.get_eq [LawfulGoKey κ] (m : GoMap κ ν) (k : κ) : m.get k = .ok (m.lk k) := by
  simp [GoMap.get, GoMap.hash, LawfulGoKey.hash, GoMap.lk]

theorem GoMap.lk_cons (e : κ × ν) (m : GoMap κ ν) (k : κ) :
    GoMap.lk (e :: m) k = if GoKey.eq k e.1 then some e.2 else GoMap.lk m k := by
  unfold GoMap.lk
  rw [List.find?_cons]
  cases GoKey.eq k e.1 <;> rfl

theorem GoMap.lk_put [LawfulGoKey κ] (m : GoMap κ ν) (k k' : κ) (v : ν) :
    GoMap.lk (GoMap.put k v m) k' = if GoKey.eq k' k then some v else GoMap.lk m k' := by
  induction m with
  | nil => simp only [GoMap.put, GoMap.lk_cons]
  | cons e m ih =>
    simp only [GoMap.put]
    cases h : GoKey.eq k e.1 with
    | true =>
      have hk : GoKey.eq k' (if GoKey.keyUpdate κ then k else e.1) = GoKey.eq k' k := by
        split
        · rfl
        · exact (GoKey.eq_right h k').symm
      simp only [if_true, GoMap.lk_cons, hk]
      rw [← GoKey.eq_right h k']
      split <;> rfl
    | false =>
      simp only [Bool.false_eq_true, if_false, GoMap.lk_cons, ih]
      cases h1 : GoKey.eq k' k with
      | false => rfl
      | true =>
        rw [GoKey.eq_left h1, h]
        rfl

theorem GoMap.lk_none {m : GoMap κ ν} {k : κ} (h : ∀ e ∈ m, GoKey.eq k e.1 = false) : m.lk k = none := by
  unfold GoMap.lk
  rw [List.find?_eq_none.2]
  · rfl
  · intro e he; simp [h e he]

/-- No two keys are equal. -/
def GoMap.Distinct (m : GoMap κ ν) : Prop := m.Pairwise fun a b => GoKey.eq a.1 b.1 = false

theorem GoMap.lk_del [LawfulGoKey κ] (m : GoMap κ ν) (hm : m.Distinct) (k k' : κ) :
    GoMap.lk (GoMap.del k m) k' = if GoKey.eq k' k then none else GoMap.lk m k' := by
  unfold GoMap.del
  induction m with
  | nil => simp [GoMap.lk]
  | cons e m ih =>
    obtain ⟨h1, h2⟩ := List.pairwise_cons.1 hm
    rw [List.eraseP_cons]
    cases h : GoKey.eq k e.1 with
    | true =>
      simp only [cond_true, GoMap.lk_cons]
      rw [← GoKey.eq_right h k']
      cases h3 : GoKey.eq k' k with
      | false => rfl
      | true =>
        rw [GoMap.lk_none]; · rfl
        intro x hx
        rw [GoKey.eq_left h3, GoKey.eq_left h]
        exact h1 x hx
    | false =>
      simp only [cond_false, GoMap.lk_cons, ih h2]
      cases h3 : GoKey.eq k' k with
      | false => rfl
      | true => rw [GoKey.eq_left h3, h]; rfl

theorem GoMap.put_keys [LawfulGoKey κ] (m : GoMap κ ν) (k : κ) (v : ν) (e : κ × ν) (he : e ∈ GoMap.put k v m) :
    GoKey.eq k e.1 = true ∨ e ∈ m := by
  induction m with
  | nil =>
    simp only [GoMap.put, List.mem_singleton] at he
    rw [he]; exact .inl (LawfulGoKey.refl k)
  | cons a m ih =>
    simp only [GoMap.put] at he
    split at he
    · next h =>
      rcases List.mem_cons.1 he with rfl | he
      · left
        split
        · exact LawfulGoKey.refl k
        · exact h
      · exact .inr (List.mem_cons_of_mem _ he)
    · rcases List.mem_cons.1 he with rfl | he
      · exact .inr List.mem_cons_self
      · rcases ih he with h | h
        · exact .inl h
        · exact .inr (List.mem_cons_of_mem _ h)

theorem GoMap.distinct_put [LawfulGoKey κ] (m : GoMap κ ν) (hm : m.Distinct) (k : κ) (v : ν) :
    (GoMap.put k v m).Distinct := by
  induction m with
  | nil => simp [GoMap.put, GoMap.Distinct]
  | cons e m ih =>
    obtain ⟨h1, h2⟩ := List.pairwise_cons.1 hm
    simp only [GoMap.put]
    split
    · next h =>
      apply List.pairwise_cons.2 ⟨?_, h2⟩
      intro x hx
      have := h1 x hx
      simp only
      split
      · rw [GoKey.eq_left h]; exact this
      · exact this
    · next h =>
      apply List.pairwise_cons.2 ⟨?_, ih h2⟩
      intro x hx
      rcases GoMap.put_keys m k v x hx with hk | hk
      · rw [← GoKey.eq_right hk, GoKey.eq_comm]
        simpa using h
      · exact h1 x hk

theorem GoMap.distinct_del (m : GoMap κ ν) (hm : m.Distinct) (k : κ) : (GoMap.del k m).Distinct :=
  hm.sublist (List.eraseP_sublist)

theorem GoMap.length_put (m : GoMap κ ν) (k : κ) (v : ν) :
    (GoMap.put k v m).length = if (m.lk k).isSome then m.length else m.length + 1 := by
  induction m with
  | nil => simp [GoMap.put, GoMap.lk]
  | cons e m ih =>
    simp only [GoMap.put, GoMap.lk_cons]
    split
    · simp
    · simp only [List.length_cons, ih]
      split <;> rfl

theorem GoMap.length_del (m : GoMap κ ν) (k : κ) :
    (GoMap.del k m).length = if (m.lk k).isSome then m.length - 1 else m.length := by
  unfold GoMap.del
  induction m with
  | nil => simp
  | cons e m ih =>
    rw [List.eraseP_cons, GoMap.lk_cons]
    cases h : GoKey.eq k e.1 with
    | true => simp
    | false =>
      simp only [cond_false, Bool.false_eq_true, if_false, List.length_cons, ih]
      cases h1 : GoMap.lk m k with
      | none => rfl
      | some v =>
        have : 0 < m.length := by
          cases m with
          | nil => simp [GoMap.lk] at h1
          | cons _ _ => simp
        simp
        omega

theorem GoMap.lk_mem [LawfulGoKey κ] (m : GoMap κ ν) (hm : m.Distinct) (k : κ) (v : ν) :
    m.lk k = some v ↔ ∃ e ∈ m, GoKey.eq k e.1 = true ∧ e.2 = v := by
  induction m with
  | nil => simp [GoMap.lk]
  | cons a m ih =>
    obtain ⟨h1, h2⟩ := List.pairwise_cons.1 hm
    rw [GoMap.lk_cons]
    cases h : GoKey.eq k a.1 with
    | true =>
      simp only [if_true, Option.some.injEq]
      constructor
      · rintro rfl; exact ⟨a, List.mem_cons_self, h, rfl⟩
      · rintro ⟨e, he, hk, rfl⟩
        rcases List.mem_cons.1 he with rfl | he
        · rfl
        · have := h1 e he
          rw [← GoKey.eq_left h, hk] at this
          cases this
    | false =>
      simp only [Bool.false_eq_true, if_false, ih h2]
      constructor
      · rintro ⟨e, he, hk⟩; exact ⟨e, List.mem_cons_of_mem _ he, hk⟩
      · rintro ⟨e, he, hk, hv⟩
        rcases List.mem_cons.1 he with rfl | he
        · rw [h] at hk; cases hk
        · exact ⟨e, he, hk, hv⟩

theorem Spec.Enumerates.lk [LawfulGoKey κ] {m : GoMap κ ν} {f : FMap κ ν} (h : Enumerates m f) (k : κ) :
    m.lk k = f.get k := by
  apply Option.ext
  intro v
  rw [GoMap.lk_mem m h.distinct, h.entries]

theorem enumerates_of_lk [LawfulGoKey κ] {m : GoMap κ ν} {f : FMap κ ν} (hd : m.Distinct)
    (hl : ∀ k, m.lk k = f.get k) (hs : m.length = f.size) : Enumerates m f :=
  ⟨hd, fun k v => by rw [← hl, GoMap.lk_mem m hd], hs⟩

theorem Spec.Enumerates.perm [LawfulGoKey κ] {l m : List (κ × ν)} {f : FMap κ ν} (hp : l.Perm m) (h : Enumerates m f) :
    Enumerates l f := by
  refine ⟨?_, ?_, hp.length_eq.trans h.size⟩
  · refine hp.symm.pairwise h.distinct ?_
    intro a b hab
    rw [GoKey.eq_comm]; exact hab
  · intro k v
    rw [h.entries]
    exact ⟨fun ⟨e, he, r⟩ => ⟨e, hp.mem_iff.2 he, r⟩, fun ⟨e, he, r⟩ => ⟨e, hp.mem_iff.1 he, r⟩⟩

/-- Pigeonhole: if all keys of a distinct list occur in a list that is not longer, then conversely. -/
theorem keys_pigeonhole [LawfulGoKey κ] {μ : Type} (l : List (κ × ν)) (m : List (κ × μ))
    (hl : l.Pairwise fun a b => GoKey.eq a.1 b.1 = false)
    (hsub : ∀ e ∈ l, ∃ e' ∈ m, GoKey.eq e.1 e'.1 = true) (hlen : m.length ≤ l.length) :
    ∀ e' ∈ m, ∃ e ∈ l, GoKey.eq e.1 e'.1 = true := by
  induction l generalizing m with
  | nil =>
    intro e' he'
    cases m with
    | nil => cases he'
    | cons _ _ => simp at hlen
  | cons a l ih =>
    obtain ⟨h1, h2⟩ := List.pairwise_cons.1 hl
    obtain ⟨b, hb, hab⟩ := hsub a List.mem_cons_self
    obtain ⟨m1, m2, rfl⟩ := List.append_of_mem hb
    have hsub' : ∀ e ∈ l, ∃ e' ∈ m1 ++ m2, GoKey.eq e.1 e'.1 = true := by
      intro e he
      obtain ⟨c, hc, hec⟩ := hsub e (List.mem_cons_of_mem _ he)
      rcases List.mem_append.1 hc with hc | hc
      · exact ⟨c, List.mem_append_left _ hc, hec⟩
      · rcases List.mem_cons.1 hc with rfl | hc
        · have := h1 e he
          rw [GoKey.eq_left hab, GoKey.eq_comm, hec] at this
          cases this
        · exact ⟨c, List.mem_append_right _ hc, hec⟩
    have ih' := ih (m1 ++ m2) h2 hsub' (by simp at hlen ⊢; omega)
    intro e' he'
    have hcase : e' = b ∨ e' ∈ m1 ++ m2 := by
      rcases List.mem_append.1 he' with h | h
      · exact .inr (List.mem_append_left _ h)
      · rcases List.mem_cons.1 h with h | h
        · exact .inl h
        · exact .inr (List.mem_append_right _ h)
    rcases hcase with rfl | h
    · exact ⟨a, List.mem_cons_self, hab⟩
    · obtain ⟨e, he, h⟩ := ih' e' h
      exact ⟨e, List.mem_cons_of_mem _ he, h⟩

/-! ### C69 -/

/-- The handle refers to a map of the heap that holds exactly the entries of `f`. -/
def HMap.Rep (h : MapHeap κ ν) (m : HMap) (f : FMap κ ν) : Prop :=
  ∃ r es, m.data = some r ∧ h[r]? = some es ∧ Enumerates es f

/-- The operations of C69. -/
inductive HOp (κ ν : Type) where
  | insert (k : κ) (v : ν) | remove (k : κ) | get (k : κ) | containsKey (k : κ) | len | isEmpty | clear

/-- What the operations do on a mathematical map. -/
def Spec.mapStep : HOp κ ν → FMap κ ν → FMap κ ν × Obs ν
  | .insert k v, f => (f.insert k v, .opt (f.get k))
  | .remove k, f => (f.remove k, .opt (f.get k))
  | .get k, f => (f, .opt (f.get k))
  | .containsKey k, f => (f, .bool (f.get k).isSome)
  | .len, f => (f, .nat f.size)
  | .isEmpty, f => (f, .bool (f.size == 0))
  | .clear, _ => (FMap.empty, .unit)

/-- The library's operations. -/
def HMap.step : HOp κ ν → MapHeap κ ν × HMap → Go ((MapHeap κ ν × HMap) × Obs ν)
  | .insert k v, (h, m) => do let (h, r) ← m.insert h k v; .ok ((h, m), .opt r.value)
  | .remove k, (h, m) => do let (h, r) ← m.remove h k; .ok ((h, m), .opt r.value)
  | .get k, (h, m) => do let r ← m.get h k; .ok ((h, m), .opt r.value)
  | .containsKey k, (h, m) => do let b ← m.containsKey h k; .ok ((h, m), .bool b)
  | .len, (h, m) => .ok ((h, m), .nat (m.len h))
  | .isEmpty, (h, m) => .ok ((h, m), .bool (m.isEmpty h))
  | .clear, (h, m) => .ok (m.clear h, .unit)

/-- Run a history on the mathematical map. -/
def Spec.runMap {S O R : Type} (step : O → S → S × R) : List O → S → List R × S
  | [], s => ([], s)
  | o :: os, s => let (s, r) := step o s; let (rs, s) := runMap step os s; (r :: rs, s)

/-- Run a history on the library. -/
def runGo {S O R : Type} (step : O → S → Go (S × R)) : List O → S → Go (List R × S)
  | [], s => .ok ([], s)
  | o :: os, s => do
    let (s, r) ← step o s
    let (rs, s) ← runGo step os s
    .ok (r :: rs, s)

/-- Only the map the handle refers to and maps made later may differ; the handle itself stays or refers to
a map made later. -/
structure HMap.Frame (h : MapHeap κ ν) (m : HMap) (h' : MapHeap κ ν) (m' : HMap) : Prop where
  grows : h.length ≤ h'.length
  others : ∀ r, r < h.length → m.data ≠ some r → h'[r]? = h[r]?
  handle : m'.data = m.data ∨ ∃ r, m'.data = some r ∧ h.length ≤ r

theorem HMap.Frame.rfl' (h : MapHeap κ ν) (m : HMap) : HMap.Frame h m h m :=
  ⟨Nat.le_refl _, fun _ _ _ => rfl, .inl rfl⟩

theorem HMap.Frame.trans {h1 h2 h3 : MapHeap κ ν} {m1 m2 m3 : HMap} (a : HMap.Frame h1 m1 h2 m2)
    (b : HMap.Frame h2 m2 h3 m3) : HMap.Frame h1 m1 h3 m3 := by
  refine ⟨Nat.le_trans a.grows b.grows, ?_, ?_⟩
  · intro r hr hne
    rw [b.others r (Nat.lt_of_lt_of_le hr a.grows), a.others r hr hne]
    rcases a.handle with h | ⟨r', h, h'⟩
    · rw [h]; exact hne
    · rw [h]; intro he; cases he; omega
  · rcases b.handle with h | ⟨r, h, h'⟩
    · rw [h]; exact a.handle
    · exact .inr ⟨r, h, Nat.le_trans a.grows h'⟩

theorem HMap.load_eq {h : MapHeap κ ν} {m : HMap} {r : Nat} {es : GoMap κ ν} (hd : m.data = some r)
    (hr : h[r]? = some es) : m.load h = es := by
  simp [HMap.load, hd, hr]

variable [LawfulGoKey κ]

theorem Spec.Enumerates.put {es : GoMap κ ν} {f : FMap κ ν} (he : Enumerates es f) (k : κ) (v : ν) :
    Enumerates (GoMap.put k v es) (f.insert k v) := by
  refine enumerates_of_lk (GoMap.distinct_put es he.distinct k v) ?_ ?_
  · intro k'; rw [GoMap.lk_put, he.lk]; rfl
  · rw [GoMap.length_put, he.lk, he.size]; rfl

theorem Spec.Enumerates.del {es : GoMap κ ν} {f : FMap κ ν} (he : Enumerates es f) (k : κ) :
    Enumerates (GoMap.del k es) (f.remove k) := by
  refine enumerates_of_lk (GoMap.distinct_del es he.distinct k) ?_ ?_
  · intro k'; rw [GoMap.lk_del _ he.distinct, he.lk]; rfl
  · rw [GoMap.length_del, he.lk, he.size]; rfl

theorem HMap.insert_eq {h : MapHeap κ ν} {m : HMap} {f : FMap κ ν} (hm : m.Rep h f) (k : κ) (v : ν) :
    ∃ h', m.insert h k v = .ok (h', ⟨f.get k⟩) ∧ m.Rep h' (f.insert k v) ∧ HMap.Frame h m h' m ∧
      h'.length = h.length := by
  obtain ⟨r, es, hd, hr, he⟩ := hm
  have hlt : r < h.length := by
    rcases Nat.lt_or_ge r h.length with h' | h'
    · exact h'
    · rw [List.getElem?_eq_none h'] at hr; cases hr
  refine ⟨h.set r (GoMap.put k v es), ?_, ⟨r, _, hd, by simp [hlt], he.put k v⟩,
    ⟨by simp, ?_, .inl rfl⟩, by simp⟩
  · unfold HMap.insert HMap.assign
    rw [HMap.load_eq hd hr, GoMap.get_eq, he.lk]
    simp only [Go.bind_ok, hd, GoMap.hash, LawfulGoKey.hash, if_true, List.getD, hr, Option.getD_some]
    cases f.get k <;> rfl
  · intro r' _ hne
    have : r ≠ r' := by rintro rfl; exact hne hd
    simp [List.getElem?_set_ne this]

theorem HMap.remove_eq {h : MapHeap κ ν} {m : HMap} {f : FMap κ ν} (hm : m.Rep h f) (k : κ) :
    ∃ h', m.remove h k = .ok (h', ⟨f.get k⟩) ∧ m.Rep h' (f.remove k) ∧ HMap.Frame h m h' m := by
  obtain ⟨r, es, hd, hr, he⟩ := hm
  have hlt : r < h.length := by
    rcases Nat.lt_or_ge r h.length with h' | h'
    · exact h'
    · rw [List.getElem?_eq_none h'] at hr; cases hr
  refine ⟨h.set r (GoMap.del k es), ?_, ⟨r, _, hd, by simp [hlt], he.del k⟩,
    ⟨by simp, ?_, .inl rfl⟩⟩
  · unfold HMap.remove HMap.delete
    rw [HMap.load_eq hd hr, GoMap.get_eq, he.lk]
    simp only [Go.bind_ok, hd, GoMap.hash, LawfulGoKey.hash, if_true, List.getD, hr, Option.getD_some]
    cases f.get k <;> rfl
  · intro r' _ hne
    have : r ≠ r' := by rintro rfl; exact hne hd
    simp [List.getElem?_set_ne this]

theorem HMap.containsKey_eq {h : MapHeap κ ν} {m : HMap} {f : FMap κ ν} (hm : m.Rep h f) (k : κ) :
    m.containsKey h k = .ok (f.get k).isSome := by
  obtain ⟨r, es, hd, hr, he⟩ := hm
  simp only [HMap.containsKey]
  rw [HMap.load_eq hd hr, GoMap.get_eq, he.lk]; rfl

theorem HMap.len_eq {h : MapHeap κ ν} {m : HMap} {f : FMap κ ν} (hm : m.Rep h f) (hs : f.size < 2 ^ 64) :
    m.len h = f.size := by
  obtain ⟨r, es, hd, hr, he⟩ := hm
  unfold HMap.len
  rw [HMap.load_eq hd hr, he.size]
  exact Nat.mod_eq_of_lt hs

omit [LawfulGoKey κ] in
theorem HMap.new_rep (h : MapHeap κ ν) : (HMap.new h).2.Rep (HMap.new h).1 FMap.empty :=
  ⟨h.length, [], rfl, by simp [HMap.new], .nil, by simp [FMap.empty], rfl⟩

/-- One operation does what it does on the mathematical map. -/
theorem HMap.step_refines (o : HOp κ ν) (h : MapHeap κ ν) (m : HMap) (f : FMap κ ν) (hm : m.Rep h f)
    (hs : f.size < 2 ^ 64) :
    ∃ h' m', HMap.step o (h, m) = .ok ((h', m'), (Spec.mapStep o f).2) ∧
      m'.Rep h' (Spec.mapStep o f).1 ∧ HMap.Frame h m h' m' := by
  cases o with
  | insert k v =>
    obtain ⟨h', h1, h2, h3, _⟩ := HMap.insert_eq hm k v
    exact ⟨h', m, by simp [HMap.step, h1, Spec.mapStep], h2, h3⟩
  | remove k =>
    obtain ⟨h', h1, h2, h3⟩ := HMap.remove_eq hm k
    exact ⟨h', m, by simp [HMap.step, h1, Spec.mapStep], h2, h3⟩
  | get k =>
    refine ⟨h, m, ?_, hm, .rfl' h m⟩
    obtain ⟨r, es, hd, hr, he⟩ := hm
    simp only [HMap.step, HMap.get]
    rw [HMap.load_eq hd hr, GoMap.get_eq, he.lk]
    simp only [Spec.mapStep]
    cases f.get k <;> rfl
  | containsKey k =>
    exact ⟨h, m, by simp [HMap.step, HMap.containsKey_eq hm, Spec.mapStep], hm, .rfl' h m⟩
  | len =>
    refine ⟨h, m, ?_, hm, .rfl' h m⟩
    simp only [HMap.step, HMap.len_eq hm hs, Spec.mapStep]
  | isEmpty =>
    refine ⟨h, m, ?_, hm, .rfl' h m⟩
    simp only [HMap.step, HMap.isEmpty, HMap.len_eq hm hs, Spec.mapStep]
  | clear =>
    exact ⟨_, _, rfl, HMap.new_rep h, by simp,
      fun r hr _ => by simp [List.getElem?_append_left hr], .inr ⟨_, rfl, Nat.le_refl _⟩⟩

omit [LawfulGoKey κ] in
theorem Spec.mapStep_size (o : HOp κ ν) (f : FMap κ ν) : (Spec.mapStep o f).1.size ≤ f.size + 1 := by
  cases o <;> simp only [Spec.mapStep, FMap.insert, FMap.remove, FMap.empty] <;> (try split) <;> omega

/-- C69: for every key type with a lawful `==`, every history of Insert, Remove, Get, ContainsKey, Len,
IsEmpty and Clear on a map holding the entries `f` returns what the mathematical finite map returns (Insert
the previous value, Remove the removed one), never panics, and leaves the handle with exactly the entries of
the final mathematical map.  All other maps of the program are unchanged.  (Fewer than 2^64 entries.) -/
theorem C69_map_history (ops : List (HOp κ ν)) (h : MapHeap κ ν) (m : HMap) (f : FMap κ ν) (hm : m.Rep h f)
    (hs : f.size + ops.length < 2 ^ 64) :
    ∃ h' m', runGo HMap.step ops (h, m) = .ok ((Spec.runMap Spec.mapStep ops f).1, (h', m')) ∧
      m'.Rep h' (Spec.runMap Spec.mapStep ops f).2 ∧ HMap.Frame h m h' m' := by
  induction ops generalizing h m f with
  | nil => exact ⟨h, m, rfl, hm, .rfl' h m⟩
  | cons o ops ih =>
    simp only [List.length_cons] at hs
    obtain ⟨h1, m1, e1, r1, f1⟩ := HMap.step_refines o h m f hm (by omega)
    have := Spec.mapStep_size o f
    obtain ⟨h2, m2, e2, r2, f2⟩ := ih h1 m1 _ r1 (by omega)
    exact ⟨h2, m2, by simp [runGo, e1, e2, Spec.runMap], r2, f1.trans f2⟩

omit [LawfulGoKey κ] in
/-- C69: HashMapNew and HashMapWithCapacity give the empty map, in a map of its own. -/
theorem C69_map_new (h : MapHeap κ ν) (n : Nat) :
    (HMap.new h).2.Rep (HMap.new h).1 FMap.empty ∧ HMap.withCapacity h n = HMap.new h ∧
      (HMap.new h).2.data = some h.length ∧ ∀ r, r < h.length → (HMap.new h).1[r]? = h[r]? :=
  ⟨HMap.new_rep h, rfl, rfl, fun r hr => by simp [HMap.new, List.getElem?_append_left hr]⟩

omit [GoKey κ] [LawfulGoKey κ] in
theorem enumerates_length_aux [GoKey κ] [LawfulGoKey κ] {l m : List (κ × ν)} {f g : FMap κ ν}
    (hl : Enumerates l f) (hm : Enumerates m g) (hfg : f.get = g.get) : l.length ≤ m.length := by
  induction l generalizing m f g with
  | nil => simp
  | cons a l ih =>
    obtain ⟨h1, h2⟩ := List.pairwise_cons.1 hl.distinct
    have hl' : Enumerates l (f.remove a.1) := by
      have := hl.del a.1
      rw [GoMap.del, List.eraseP_cons, LawfulGoKey.refl] at this
      exact this
    have hm' := hm.del a.1
    have := ih hl' hm' (by simp [FMap.remove, hfg])
    rw [GoMap.length_del, hm.lk, ← hfg, ← hl.lk, GoMap.lk_cons, LawfulGoKey.refl] at this
    simp only [if_true, Option.isSome_some] at this
    have h0 : 0 < m.length := by
      cases m with
      | nil =>
        have := hm.lk a.1
        rw [← hfg, ← hl.lk, GoMap.lk_cons, LawfulGoKey.refl] at this
        simp [GoMap.lk] at this
      | cons _ _ => simp
    simp only [List.length_cons]
    omega

/-- C69: the number of entries is determined by the entries: two finite maps that agree on every key and
can be listed have the same size, so Len is the number of entries of the mathematical map. -/
theorem C69_map_size {l m : List (κ × ν)} {f g : FMap κ ν}
    (hl : Enumerates l f) (hm : Enumerates m g) (hfg : f.get = g.get) : f.size = g.size := by
  rw [← hl.size, ← hm.size]
  exact Nat.le_antisymm (enumerates_length_aux hl hm hfg) (enumerates_length_aux hm hl hfg.symm)

end

/-- Integers as keys. -/
instance : GoKey Int := ⟨(· == ·), false, fun _ => true⟩
instance : LawfulGoKey Int where
  refl := by simp [GoKey.eq]
  symm := by simp [GoKey.eq]
  trans := by simp [GoKey.eq]
  hash := fun _ => rfl

/-- Keys for which `==` is not identity: 0 and -0 of a float type (without NaN), `neg` is the sign of zero. -/
inductive ZKey where | zero (neg : Bool) | num (n : Int)
  deriving DecidableEq
instance : GoKey ZKey := ⟨fun a b => match a, b with
  | .zero _, .zero _ => true | .num a, .num b => a == b | _, _ => false, true, fun _ => true⟩
instance : LawfulGoKey ZKey where
  refl := by intro a; cases a <;> simp [GoKey.eq]
  symm := by intro a b h; cases a <;> cases b <;> simp_all [GoKey.eq]
  trans := by intro a b c h1 h2; cases a <;> cases b <;> cases c <;> simp_all [GoKey.eq]
  hash := fun _ => rfl


/-- A history with overwriting, removal and clearing, among other maps. -/
example : runGo HMap.step [.insert (1 : Int) 10, .insert 2 20, .insert 1 11, .remove 2, .remove 2, .get 1,
      .containsKey 2, .len, .clear, .isEmpty, .insert 5 50] (([[(7, 70)], []] : MapHeap Int Int), ⟨some 1⟩) =
    .ok ([.opt none, .opt none, .opt (some 10), .opt (some 20), .opt none, .opt (some 11), .bool false,
      .nat 1, .unit, .bool true, .opt none], ([[(7, 70)], [(1, 11)], [(5, 50)]], ⟨some 2⟩)) := by decide
/-- Zero and minus zero are one key; the key stored is the one inserted last. -/
example : runGo HMap.step [.insert (.zero false) 10, .insert (.num 2) 20, .insert (.zero true) 11, .len]
      (HMap.new ([] : MapHeap ZKey Int)) =
    .ok ([.opt none, .opt none, .opt (some 10), .nat 2],
      ([[(.zero true, 11), (.num 2, 20)]], ⟨some 0⟩)) := by decide

/-! ### C70 -/

section
variable {κ ν α : Type} [GoKey κ] [LawfulGoKey κ]

theorem pushAll_data {β : Type} (g : Growth) (f : β → α) (l : List β) (v : Vec α) :
    (l.foldl (fun vec e => vec.push g (f e)) v).data = v.data ++ l.map f := by
  induction l generalizing v with
  | nil => simp
  | cons a l ih =>
    rw [List.foldl_cons, ih]
    simp [Vec.push, Vec.goAppend_data]

/-- C70: whatever order Go iterates in, IntoIter, Keys and Values yield every entry of the map exactly once
and then None forever: the pairs (keys, values) yielded by `n` calls of Next are the first `n` of a list
`l` of the entries, in which no two keys are equal and which has Len elements. -/
theorem C70_map_iter (g : Growth) (h : MapHeap κ ν) (m : HMap) (f : FMap κ ν) (hm : m.Rep h f)
    (ord : List (κ × ν)) (ho : m.Ranges h ord) :
    ∃ l, Enumerates l f ∧ ∀ n,
      (HMap.intoIter g ord).nexts n = .ok ((List.range n).map fun i => (l.map fun e => Pair.mk e.1 e.2)[i]?) ∧
      (HMap.keys g ord).nexts n = .ok ((List.range n).map fun i => (l.map (·.1))[i]?) ∧
      (HMap.values g ord).nexts n = .ok ((List.range n).map fun i => (l.map (·.2))[i]?) := by
  obtain ⟨r, es, hd, hr, he⟩ := hm
  rw [HMap.Ranges, HMap.load_eq hd hr] at ho
  refine ⟨ord, he.perm ho, fun n => ⟨?_, ?_, ?_⟩⟩
  · rw [← List.nil_append (ord.map _)]
    have := pushAll_data g (fun e : κ × ν => Pair.mk e.1 e.2) ord Vec.new
    rw [show ([] : List (Pair κ ν)) = (Vec.new : Vec (Pair κ ν)).data from rfl, ← this]
    exact C53_vec_iter_next _ n
  · rw [← List.nil_append (ord.map _)]
    have := pushAll_data g (fun e : κ × ν => e.1) ord Vec.new
    rw [show ([] : List κ) = (Vec.new : Vec κ).data from rfl, ← this]
    exact C53_vec_iter_next _ n
  · rw [← List.nil_append (ord.map _)]
    have := pushAll_data g (fun e : κ × ν => e.2) ord Vec.new
    rw [show ([] : List ν) = (Vec.new : Vec ν).data from rfl, ← this]
    exact C53_vec_iter_next _ n

/-- The image of a map under a function on the values. -/
def Spec.FMap.mapValues (f : FMap κ ν) (c : ν → ν) : FMap κ ν := ⟨fun k => (f.get k).map c, f.size⟩

theorem HMap.cloneLoop_eq (ck : κ → κ) (cv : ν → ν) (hck : ∀ k, GoKey.eq (ck k) k = true) (new : HMap)
    (ord : List (κ × ν)) (hd : ord.Pairwise fun a b => GoKey.eq a.1 b.1 = false)
    (h : MapHeap κ ν) (f : FMap κ ν) (hm : new.Rep h f) (hf : ∀ e ∈ ord, f.get e.1 = none)
    (hresp : ∀ k k', GoKey.eq k k' = true → f.get k = f.get k') :
    ∃ h' f', HMap.cloneLoop (some ck) (some cv) new ord h = .ok h' ∧ new.Rep h' f' ∧
      HMap.Frame h new h' new ∧ h'.length = h.length ∧ f'.size = f.size + ord.length ∧
      ∀ k, f'.get k = ((GoMap.lk ord k).map cv).or (f.get k) := by
  induction ord generalizing h f with
  | nil => exact ⟨h, f, rfl, hm, .rfl' _ _, rfl, rfl, fun k => by simp [GoMap.lk]⟩
  | cons e ord ih =>
    obtain ⟨h1, h2⟩ := List.pairwise_cons.1 hd
    obtain ⟨hp, e1, r1, fr1, l1⟩ := HMap.insert_eq hm (ck e.1) (cv e.2)
    have hnone : f.get (ck e.1) = none := by
      rw [hresp _ _ (hck e.1)]; exact hf e List.mem_cons_self
    obtain ⟨h', f', e2, r2, fr2, l2, s2, g2⟩ := ih h2 hp _ r1 (by
        intro x hx
        simp only [FMap.insert]
        have : GoKey.eq x.1 (ck e.1) = false := by
          rw [GoKey.eq_right (hck e.1), GoKey.eq_comm]; exact h1 x hx
        rw [this]
        exact hf x (List.mem_cons_of_mem _ hx)) (by
        intro k k' hk
        simp only [FMap.insert]
        rw [GoKey.eq_left hk, hresp k k' hk])
    refine ⟨h', f', ?_, r2, fr1.trans fr2, l2.trans l1, ?_, ?_⟩
    · obtain ⟨k, v⟩ := e
      simp only [HMap.cloneLoop, e1, Go.bind_ok, e2]
    · rw [s2]
      simp only [FMap.insert, hnone, List.length_cons, Option.isSome_none, Bool.false_eq_true, if_false]
      omega
    · intro k
      rw [g2, GoMap.lk_cons]
      simp only [FMap.insert]
      rw [GoKey.eq_right (hck e.1)]
      cases hk : GoKey.eq k e.1 with
      | false => simp
      | true =>
        have : GoMap.lk ord k = none := GoMap.lk_none (by
          intro x hx
          rw [GoKey.eq_left hk]; exact h1 x hx)
        simp [this]

/-- C70: Clone gives, whatever order Go iterates in, a new map with the same keys and cloned values; it is
stored in a map of its own and no existing map changes.  (Key clones have to be equal to the key.) -/
theorem C70_map_clone (ck : κ → κ) (cv : ν → ν) (hck : ∀ k, GoKey.eq (ck k) k = true)
    (h : MapHeap κ ν) (m : HMap) (f : FMap κ ν) (hm : m.Rep h f) (ord : List (κ × ν)) (ho : m.Ranges h ord) :
    ∃ h' m', HMap.clone (some ck) (some cv) h ord = .ok (h', m') ∧ m'.Rep h' (f.mapValues cv) ∧
      m'.data = some h.length ∧ ∀ r, r < h.length → h'[r]? = h[r]? := by
  obtain ⟨r, es, hd, hr, he⟩ := hm
  rw [HMap.Ranges, HMap.load_eq hd hr] at ho
  have he' := he.perm ho
  obtain ⟨h', f', e1, r1, fr, l1, s1, g1⟩ := HMap.cloneLoop_eq ck cv hck (HMap.new h).2 ord he'.distinct
    (HMap.new h).1 FMap.empty (HMap.new_rep h) (fun _ _ => rfl) (fun _ _ _ => rfl)
  refine ⟨h', (HMap.new h).2, ?_, ?_, rfl, ?_⟩
  · simp only [HMap.clone, e1, Go.bind_ok]
  · have : f' = f.mapValues cv := by
      cases f' with
      | mk get size =>
        simp only [FMap.mapValues, FMap.mk.injEq]
        constructor
        · funext k
          have := g1 k
          simp only [FMap.empty, Option.or_none, he'.lk] at this
          exact this
        · simp only [FMap.empty] at s1
          rw [s1, ← he'.size]; omega
    rw [← this]; exact r1
  · intro r' hr'
    rw [fr.others r' (by simp [HMap.new]; omega) (by simp [HMap.new]; omega)]
    simp [HMap.new, List.getElem?_append_left hr']

theorem HMap.Rep.of_frame {h h' : MapHeap κ ν} {m m' n : HMap} {f : FMap κ ν} (hn : n.Rep h f)
    (hne : n.data ≠ m.data) (fr : HMap.Frame h m h' m') : n.Rep h' f := by
  obtain ⟨r, es, hd, hr, he⟩ := hn
  refine ⟨r, es, hd, ?_, he⟩
  rw [fr.others r ?_ (by rw [← hd]; exact fun h => hne h.symm), hr]
  rcases Nat.lt_or_ge r h.length with h' | h'
  · exact h'
  · rw [List.getElem?_eq_none h'] at hr; cases hr

/-- C70: a clone is independent: no history of operations on the clone changes what the original holds, and
no history on the original changes what the clone holds. -/
theorem C70_map_clone_independent (ck : κ → κ) (cv : ν → ν) (hck : ∀ k, GoKey.eq (ck k) k = true)
    (h : MapHeap κ ν) (m : HMap) (f : FMap κ ν) (hm : m.Rep h f) (ord : List (κ × ν)) (ho : m.Ranges h ord)
    (ops : List (HOp κ ν)) (hs : f.size + ops.length < 2 ^ 64) :
    ∃ h' m', HMap.clone (some ck) (some cv) h ord = .ok (h', m') ∧
      (∃ rs h2 m2, runGo HMap.step ops (h', m') = .ok (rs, (h2, m2)) ∧ m.Rep h2 f) ∧
      (∃ rs h2 m2, runGo HMap.step ops (h', m) = .ok (rs, (h2, m2)) ∧ m'.Rep h2 (f.mapValues cv)) := by
  obtain ⟨h', m', e1, r1, d1, fr⟩ := C70_map_clone ck cv hck h m f hm ord ho
  obtain ⟨r, es, hd, hr, he⟩ := hm
  have hlt : r < h.length := by
    rcases Nat.lt_or_ge r h.length with h' | h'
    · exact h'
    · rw [List.getElem?_eq_none h'] at hr; cases hr
  have hm' : m.Rep h' f := ⟨r, es, hd, by rw [fr r hlt, hr], he⟩
  have hne : m.data ≠ m'.data := by rw [hd, d1]; intro h; cases h; omega
  refine ⟨h', m', e1, ?_, ?_⟩
  · obtain ⟨h2, m2, e2, _, f2⟩ := C69_map_history ops h' m' _ r1 hs
    exact ⟨_, h2, m2, e2, hm'.of_frame hne f2⟩
  · obtain ⟨h2, m2, e2, _, f2⟩ := C69_map_history ops h' m _ hm' hs
    exact ⟨_, h2, m2, e2, r1.of_frame (Ne.symm hne) f2⟩

/-- C70: a map whose keys or values have no Clone method can be cloned only if it is empty; otherwise Clone
panics, whatever the order. -/
theorem C70_map_clone_missing (cK : Option (κ → κ)) (cV : Option (ν → ν)) (hmiss : cK = none ∨ cV = none)
    (h : MapHeap κ ν) (m : HMap) (f : FMap κ ν) (hm : m.Rep h f) (ord : List (κ × ν)) (ho : m.Ranges h ord) :
    (f.size = 0 → HMap.clone cK cV h ord = .ok (HMap.new h)) ∧
    (0 < f.size → HMap.clone cK cV h ord = .error .explicit) := by
  obtain ⟨r, es, hd, hr, he⟩ := hm
  rw [HMap.Ranges, HMap.load_eq hd hr] at ho
  have hsz := (he.perm ho).size
  cases ord with
  | nil => exact ⟨fun _ => rfl, fun h0 => by simp at hsz; omega⟩
  | cons e ord =>
    refine ⟨fun h0 => by simp at hsz; omega, fun _ => ?_⟩
    obtain ⟨k, v⟩ := e
    rcases hmiss with rfl | rfl
    · rfl
    · cases cK <;> rfl

/-- The two maps have the same keys, with values that `e` relates. -/
def Spec.FMap.Same (e : ν → ν → Bool) (f g : FMap κ ν) : Prop :=
  ∀ k, match f.get k, g.get k with
    | none, none => True
    | some a, some b => e a b = true
    | _, _ => False

theorem HMap.eqLoop_eq (e : ν → ν → Bool) (h : MapHeap κ ν) (rhs : HMap) (g : FMap κ ν) (hg : rhs.Rep h g)
    (ord : List (κ × ν)) :
    HMap.eqLoop (some e) h rhs ord =
      .ok (ord.all fun x => match g.get x.1 with | none => false | some b => e x.2 b) := by
  obtain ⟨r, es, hd, hr, he⟩ := hg
  induction ord with
  | nil => rfl
  | cons x ord ih =>
    obtain ⟨k, v⟩ := x
    simp only [HMap.eqLoop]
    rw [HMap.load_eq hd hr, GoMap.get_eq, he.lk]
    cases hk : g.get k with
    | none => simp [hk]
    | some b =>
      simp only [Go.bind_ok, deref_some, List.all_cons, hk]
      cases e v b
      · rfl
      · simpa using ih

theorem Spec.Enumerates.keysOnly {l : List (κ × ν)} {f : FMap κ ν} (hl : Enumerates l f) :
    Enumerates (l.map fun x => (x.1, ())) ⟨fun k => (f.get k).map fun _ => (), f.size⟩ := by
  refine ⟨?_, ?_, by simpa using hl.size⟩
  · rw [List.pairwise_map]; exact hl.distinct
  · intro k v
    simp only [Option.map_eq_some_iff]
    constructor
    · rintro ⟨w, hw, _⟩
      obtain ⟨x, hx, hk, _⟩ := (hl.entries k w).1 hw
      exact ⟨(x.1, ()), List.mem_map.2 ⟨x, hx, rfl⟩, hk, trivial⟩
    · rintro ⟨x, hx, hk, _⟩
      obtain ⟨y, hy, rfl⟩ := List.mem_map.1 hx
      exact ⟨y.2, (hl.entries k y.2).2 ⟨y, hy, hk, rfl⟩, trivial⟩

/-- C70: Eq, in whatever order Go iterates, decides whether both maps have the same keys with values equal
by the values' Eq.  (Fewer than 2^64 entries.) -/
theorem C70_map_eq (e : ν → ν → Bool) (h : MapHeap κ ν) (a b : HMap) (f g : FMap κ ν) (ha : a.Rep h f)
    (hb : b.Rep h g) (hsf : f.size < 2 ^ 64) (hsg : g.size < 2 ^ 64) (ord : List (κ × ν))
    (ho : a.Ranges h ord) :
    ∃ r, HMap.eq (some e) h a b ord = .ok r ∧ (r = true ↔ f.Same e g) := by
  unfold HMap.eq
  rw [HMap.len_eq ha hsf, HMap.len_eq hb hsg]
  obtain ⟨ra, ea, hda, hra, hea⟩ := ha
  obtain ⟨rb, eb, hdb, hrb, heb⟩ := hb
  rw [HMap.Ranges, HMap.load_eq hda hra] at ho
  have heo := hea.perm ho
  have size_of_same : f.Same e g → f.size = g.size := by
    intro hs
    have := C69_map_size heo.keysOnly heb.keysOnly ?_
    · exact this
    funext k
    have := hs k
    revert this
    cases hf : f.get k <;> cases hg : g.get k <;> simp [hf, hg]
  by_cases hsz : f.size = g.size
  · rw [if_neg (by simpa using hsz), HMap.eqLoop_eq e h b g ⟨rb, eb, hdb, hrb, heb⟩]
    refine ⟨_, rfl, ?_⟩
    rw [List.all_eq_true]
    constructor
    · intro hall k
      cases hf : f.get k with
      | some v =>
        obtain ⟨x, hx, hk, rfl⟩ := (heo.entries k v).1 hf
        have := hall x hx
        rw [show g.get x.1 = g.get k by rw [← heb.lk, ← heb.lk]; unfold GoMap.lk; congr 2; funext y
                                        exact (GoKey.eq_left hk y.1).symm] at this
        revert this
        cases g.get k <;> simp
      | none =>
        cases hg : g.get k with
        | none => trivial
        | some w =>
          exfalso
          obtain ⟨y, hy, hk, rfl⟩ := (heb.entries k w).1 hg
          obtain ⟨x, hx, hxy⟩ := keys_pigeonhole ord eb heo.distinct (by
            intro x hx
            have := hall x hx
            revert this
            cases hgx : g.get x.1 with
            | none => simp
            | some b =>
              intro _
              obtain ⟨z, hz, hxz, _⟩ := (heb.entries x.1 b).1 hgx
              exact ⟨z, hz, hxz⟩) (by rw [heb.size, heo.size, hsz]; exact Nat.le_refl _) y hy
          have : f.get k = some x.2 := (heo.entries k x.2).2 ⟨x, hx, by
            rw [GoKey.eq_left hk, GoKey.eq_comm]; exact hxy, rfl⟩
          rw [hf] at this
          cases this
    · intro hs x hx
      have hfx : f.get x.1 = some x.2 := (heo.entries x.1 x.2).2 ⟨x, hx, LawfulGoKey.refl _, rfl⟩
      have := hs x.1
      rw [hfx] at this
      revert this
      cases g.get x.1 <;> simp
  · rw [if_pos hsz]
    exact ⟨false, rfl, by simp; exact fun hs => hsz (size_of_same hs)⟩

end

/-- A map in a heap, an order different from the stored one, a clone, and comparisons. -/
example : let h : MapHeap Int Int := [[(1, 10), (2, 20), (3, 30)], [(3, 30), (2, 20), (1, 10)], [(1, 10), (2, 21), (3, 30)]]
    (HMap.keys doubling [(3, 30), (1, 10), (2, 20)]).nexts 4 = .ok [some 3, some 1, some 2, none] ∧
    HMap.eq (some (· == ·)) h ⟨some 0⟩ ⟨some 1⟩ [(3, 30), (1, 10), (2, 20)] = .ok true ∧
    HMap.eq (some (· == ·)) h ⟨some 0⟩ ⟨some 2⟩ [(3, 30), (1, 10), (2, 20)] = .ok false ∧
    (HMap.clone (some id) (some id) h [(3, 30), (1, 10), (2, 20)]).toOption =
      some (h ++ [[(3, 30), (1, 10), (2, 20)]], ⟨some 3⟩) := by decide
example : (⟨some 0⟩ : HMap).Rep ([[(1, 10), (2, 20)]] : MapHeap Int Int)
      ⟨fun k => if k = 1 then some 10 else if k = 2 then some 20 else none, 2⟩ ∧
    (⟨some 0⟩ : HMap).Ranges ([[(1, 10), (2, 20)]] : MapHeap Int Int) [(2, 20), (1, 10)] := by
  refine ⟨⟨0, _, rfl, rfl, by simp [GoKey.eq], ?_, rfl⟩, List.Perm.swap _ _ _⟩
  intro k v
  simp only [GoKey.eq, List.mem_cons, List.not_mem_nil, or_false, exists_eq_or_imp, exists_eq_left,
    beq_iff_eq]
  split
  · next h => simp [h]
  · split
    · next h => simp [h]
    · next h1 h2 => simp [h1, h2]

/-! ### C95 -/

section
variable {κ ν : Type} [GoKey κ]

/-- The entry found for `k` after `m[k] = v`, for a `==` that need not be reflexive. -/
theorem GoMap.lk_put_self (hsymm : ∀ a b : κ, GoKey.eq a b = true → GoKey.eq b a = true)
    (htrans : ∀ a b c : κ, GoKey.eq a b = true → GoKey.eq b c = true → GoKey.eq a c = true)
    (m : GoMap κ ν) (k : κ) (v : ν) :
    GoMap.lk (GoMap.put k v m) k = if GoKey.eq k k then some v else none := by
  induction m with
  | nil => rw [GoMap.put, GoMap.lk_cons]; rfl
  | cons e m ih =>
    simp only [GoMap.put]
    cases h : GoKey.eq k e.1 with
    | true =>
      have hk : GoKey.eq k k = true := htrans _ _ _ h (hsymm _ _ h)
      have hu : GoKey.eq k (if GoKey.keyUpdate κ then k else e.1) = true := by
        split
        · exact hk
        · exact h
      simp only [if_true, GoMap.lk_cons, hk, hu]
    | false => simp [GoMap.lk_cons, h, ih]

/-- C95, full property: whatever the comparable key type and the map (also the zero value of HashMap), Get
finds what Insert has put in.  Proved: this holds exactly if the map was made by a constructor, the key can
be hashed and is equal to itself.  Missing: all other cases, see `C95_keys_fails`. -/
theorem C95_keys_partial (hsymm : ∀ a b : κ, GoKey.eq a b = true → GoKey.eq b a = true)
    (htrans : ∀ a b c : κ, GoKey.eq a b = true → GoKey.eq b c = true → GoKey.eq a c = true)
    (h : MapHeap κ ν) (m : HMap) (hv : ∀ r, m.data = some r → r < h.length) (k : κ) (v : ν) :
    (∃ h' o, m.insert h k v = .ok (h', o) ∧ m.get h' k = .ok (Opt.some v)) ↔
      m.data ≠ none ∧ GoKey.hashable k = true ∧ GoKey.eq k k = true := by
  cases hk : GoKey.hashable k with
  | false => simp [HMap.insert, GoMap.get, GoMap.hash, hk]
  | true =>
    cases hd : m.data with
    | none => simp [HMap.insert, GoMap.get, GoMap.hash, hk, HMap.assign, hd]
    | some r =>
      have hlt := hv r hd
      have hins : ∃ o, m.insert h k v = .ok (h.set r (GoMap.put k v (h.getD r [])), o) := by
        simp only [HMap.insert, GoMap.get, GoMap.hash, hk, if_true, Go.bind_ok, HMap.assign, hd]
        split
        · exact ⟨_, rfl⟩
        · exact ⟨_, rfl⟩
      obtain ⟨o, hins⟩ := hins
      have hget : m.get (h.set r (GoMap.put k v (h.getD r []))) k =
          .ok (if GoKey.eq k k then Opt.some v else Opt.none) := by
        have hl : m.load (h.set r (GoMap.put k v (h.getD r []))) = GoMap.put k v (h.getD r []) := by
          simp [HMap.load, hd, hlt]
        have := GoMap.lk_put_self hsymm htrans (h.getD r []) k v
        unfold GoMap.lk at this
        simp only [HMap.get, hl, GoMap.get, GoMap.hash, hk, if_true, Go.bind_ok, this]
        cases GoKey.eq k k <;> rfl
      constructor
      · rintro ⟨h', o', h1, h2⟩
        rw [hins] at h1
        cases h1
        rw [hget] at h2
        refine ⟨by simp, rfl, ?_⟩
        revert h2
        cases GoKey.eq k k <;> simp [Opt.none, Opt.some]
      · rintro ⟨_, _, hkk⟩
        exact ⟨_, o, hins, by rw [hget, hkk]; rfl⟩

/-- Insert the same key `n` times. -/
def HMap.insertTimes (m : HMap) (k : κ) (v : ν) : Nat → MapHeap κ ν → Go (MapHeap κ ν)
  | 0, h => .ok h
  | n + 1, h => do
    let (h, _) ← m.insert h k v
    HMap.insertTimes m k v n h

/-- C95 is violated (a) by every key different from itself (NaN): each Insert adds an entry that Get,
ContainsKey and Remove never find, so that `n` Inserts leave `n` more entries; (b) by every key that can not
be hashed: all operations panic; (c) by the zero value of HashMap: Insert panics. -/
theorem C95_keys_fails (h : MapHeap κ ν) (m : HMap) (k : κ) (v : ν) :
    ((∀ x, GoKey.eq k x = false) → GoKey.hashable k = true → ∀ r es, m.data = some r → h[r]? = some es →
      m.get h k = .ok Opt.none ∧ m.containsKey h k = .ok false ∧ m.remove h k = .ok (h, Opt.none) ∧
      ∀ n, ∃ h', m.insertTimes k v n h = .ok h' ∧ h'[r]? = some (es ++ List.replicate n (k, v)) ∧
        m.get h' k = .ok Opt.none) ∧
    (GoKey.hashable k = false → m.insert h k v = .error .unhashable ∧ m.get h k = .error .unhashable ∧
      m.containsKey h k = .error .unhashable ∧ m.remove h k = .error .unhashable) ∧
    (m.data = none → GoKey.hashable k = true → m.insert h k v = .error .nilMap ∧
      m.get h k = .ok Opt.none ∧ m.remove h k = .ok (h, Opt.none)) := by
  refine ⟨?_, ?_, ?_⟩
  · intro hx hk r es hd hr
    have hget : ∀ (h : MapHeap κ ν), (m.load h).get k = .ok none := by
      intro h
      simp only [GoMap.get, GoMap.hash, hk, if_true, Go.bind_ok]
      rw [List.find?_eq_none.2 (by intro e _; simp [hx])]
      rfl
    have hlt : r < h.length := by
      rcases Nat.lt_or_ge r h.length with h' | h'
      · exact h'
      · rw [List.getElem?_eq_none h'] at hr; cases hr
    refine ⟨by simp [HMap.get, hget], by simp [HMap.containsKey, hget], ?_, ?_⟩
    · have : GoMap.del k es = es := List.eraseP_of_forall_not (by intro e _; simp [hx])
      simp only [HMap.remove, hget, Go.bind_ok, HMap.delete, GoMap.hash, hk, if_true, hd, List.getD, hr,
        Option.getD_some, this]
      have hs : h.set r es = h := by
        apply List.ext_getElem?
        intro i
        rw [List.getElem?_set]
        split
        · next hi => rw [← hi, hr]
        · rfl
      rw [hs]
    · have hput : ∀ es : GoMap κ ν, GoMap.put k v es = es ++ [(k, v)] := by
        intro es
        induction es with
        | nil => rfl
        | cons e es ih => simp [GoMap.put, hx, ih]
      have : ∀ n (h : MapHeap κ ν) es, h[r]? = some es → ∃ h', m.insertTimes k v n h = .ok h' ∧
          h'[r]? = some (es ++ List.replicate n (k, v)) := by
        intro n
        induction n with
        | zero => intro h es hr; exact ⟨h, rfl, by simpa using hr⟩
        | succ n ih =>
          intro h es hr
          have hlt : r < h.length := by
            rcases Nat.lt_or_ge r h.length with h' | h'
            · exact h'
            · rw [List.getElem?_eq_none h'] at hr; cases hr
          obtain ⟨h', h1, h2⟩ := ih (h.set r (es ++ [(k, v)])) (es ++ [(k, v)]) (by simp [hlt])
          refine ⟨h', ?_, ?_⟩
          · simp only [HMap.insertTimes, HMap.insert, hget, Go.bind_ok, HMap.assign, hd, GoMap.hash, hk,
              if_true, List.getD, hr, Option.getD_some, hput, h1]
          · rw [h2, List.append_assoc]; rfl
      intro n
      obtain ⟨h', h1, h2⟩ := this n h es hr
      exact ⟨h', h1, h2, by simp [HMap.get, hget]⟩
  · intro hk
    simp [HMap.insert, HMap.get, HMap.containsKey, HMap.remove, GoMap.get, GoMap.hash, hk]
  · intro hd hk
    simp [HMap.insert, HMap.get, HMap.remove, HMap.assign, HMap.delete, HMap.load, GoMap.get, GoMap.hash, hk, hd]

/-- Keys like floats: NaN differs from everything. -/
inductive NKey where | nan | num (n : Int)
  deriving DecidableEq
instance : GoKey NKey := ⟨fun a b => match a, b with | .num a, .num b => a == b | _, _ => false, true,
  fun _ => true⟩
example : (HMap.insertTimes ⟨some 0⟩ NKey.nan (5 : Int) 2 [[(.num 1, 7)]]) =
      .ok [[(.num 1, 7), (.nan, 5), (.nan, 5)]] ∧
    HMap.get [[(.num 1, 7), (.nan, 5), (.nan, 5)]] ⟨some 0⟩ NKey.nan = .ok (Opt.none : Opt Int) ∧
    HMap.get [[(.num 1, 7), (.nan, 5), (.nan, 5)]] ⟨some 0⟩ (NKey.num 1) = .ok (Opt.some (7 : Int)) ∧
    HMap.insert [] ⟨none⟩ (NKey.num 1) (7 : Int) = .error .nilMap := by decide
example : ∀ x, GoKey.eq NKey.nan x = false := by intro x; cases x <;> rfl

/-! ### C96 -/

variable [LawfulGoKey κ]

/-- C96, full property: a copy of a HashMap refers to the same entries: it shows the effect of every history
of operations through the other handle.  Proved: for every history without Clear.  Missing: Clear, see
`C96_handles_fails`. -/
theorem C96_handles_partial (ops : List (HOp κ ν)) (hc : ∀ o ∈ ops, o ≠ .clear) (h : MapHeap κ ν)
    (m copy : HMap) (hcopy : copy = m) (f : FMap κ ν) (hm : m.Rep h f) (hs : f.size + ops.length < 2 ^ 64) :
    ∃ h' m', runGo HMap.step ops (h, m) = .ok ((Spec.runMap Spec.mapStep ops f).1, (h', m')) ∧
      m'.Rep h' (Spec.runMap Spec.mapStep ops f).2 ∧ copy.Rep h' (Spec.runMap Spec.mapStep ops f).2 := by
  obtain ⟨h', m', e, r, _⟩ := C69_map_history ops h m f hm hs
  refine ⟨h', m', e, r, ?_⟩
  have same : ∀ (ops : List (HOp κ ν)) (hc : ∀ o ∈ ops, o ≠ .clear) (h : MapHeap κ ν) rs h' m',
      runGo HMap.step ops (h, m) = .ok (rs, (h', m')) → m' = m := by
    intro ops
    induction ops with
    | nil => intro _ h rs h' m' he; cases he; rfl
    | cons o ops ih =>
      intro hc h rs h' m' he
      have h1 : ∀ s r, HMap.step o (h, m) = .ok (s, r) → s.2 = m := by
        intro s r hs
        cases o with
        | clear => exact absurd rfl (hc _ List.mem_cons_self)
        | insert k v =>
          simp only [HMap.step] at hs
          cases hi : m.insert h k v with
          | error e => rw [hi] at hs; cases hs
          | ok p => rw [hi] at hs; cases hs; rfl
        | remove k =>
          simp only [HMap.step] at hs
          cases hi : m.remove h k with
          | error e => rw [hi] at hs; cases hs
          | ok p => rw [hi] at hs; cases hs; rfl
        | get k =>
          simp only [HMap.step] at hs
          cases hi : m.get h k with
          | error e => rw [hi] at hs; cases hs
          | ok p => rw [hi] at hs; cases hs; rfl
        | containsKey k =>
          simp only [HMap.step] at hs
          cases hi : m.containsKey h k with
          | error e => rw [hi] at hs; cases hs
          | ok p => rw [hi] at hs; cases hs; rfl
        | len => cases hs; rfl
        | isEmpty => cases hs; rfl
      simp only [runGo] at he
      cases hs : HMap.step o (h, m) with
      | error e => rw [hs] at he; cases he
      | ok p =>
        obtain ⟨⟨hp, mp⟩, rp⟩ := p
        have := h1 _ _ hs
        simp only at this
        subst this
        rw [hs] at he
        simp only [Go.bind_ok] at he
        cases hr : runGo HMap.step ops (hp, mp) with
        | error e => rw [hr] at he; cases he
        | ok q =>
          obtain ⟨rs', h'', m''⟩ := q
          rw [hr] at he
          cases he
          exact ih (fun o ho => hc o (List.mem_cons_of_mem _ ho)) hp rs' h' m' hr
  rw [hcopy, ← same ops hc h _ h' m' e]
  exact r

/-- C96 is violated by every Clear of a map that is not empty: the cleared handle is empty, the copy keeps
all entries, and whatever is done through the cleared handle later is never seen through the copy. -/
theorem C96_handles_fails (ops : List (HOp κ ν)) (h : MapHeap κ ν) (m copy : HMap) (hcopy : copy = m)
    (f : FMap κ ν) (hm : m.Rep h f) (h0 : 0 < f.size) (hs : f.size < 2 ^ 64) (hops : ops.length < 2 ^ 64) :
    ∃ h' m' rs h2 m2, HMap.step .clear (h, m) = .ok ((h', m'), .unit) ∧ m'.len h' = 0 ∧
      copy.len h' = f.size ∧ m'.len h' ≠ copy.len h' ∧
      runGo HMap.step ops (h', m') = .ok (rs, (h2, m2)) ∧ copy.Rep h2 f := by
  subst hcopy
  obtain ⟨r, es, hd, hr, he⟩ := hm
  have hlt : r < h.length := by
    rcases Nat.lt_or_ge r h.length with h' | h'
    · exact h'
    · rw [List.getElem?_eq_none h'] at hr; cases hr
  have hm' : copy.Rep (HMap.clear h copy).1 f :=
    ⟨r, es, hd, by simp [HMap.clear, List.getElem?_append_left hlt, hr], he⟩
  have hn : (HMap.clear h copy).2.Rep (HMap.clear h copy).1 FMap.empty := HMap.new_rep h
  obtain ⟨h2, m2, e2, _, f2⟩ := C69_map_history ops _ _ _ hn (by simpa [FMap.empty] using hops)
  have l1 := HMap.len_eq hm' hs
  have l2 := HMap.len_eq hn (by simp [FMap.empty])
  simp only [FMap.empty] at l2
  refine ⟨_, _, _, h2, m2, rfl, l2, l1, ?_, e2, hm'.of_frame ?_ f2⟩
  · intro h'
    exact absurd (l2.symm.trans (h'.trans l1)) (by omega)
  rw [hd]
  simp [HMap.clear]
  omega

end

example : let s := runGo HMap.step [.insert (1 : Int) (10 : Int), .insert 2 20] (HMap.new [])
    s.toOption.map (·.2) = some ([[(1, 10), (2, 20)]], ⟨some 0⟩) ∧
    (HMap.step .clear (([[(1, 10), (2, 20)]], ⟨some 0⟩) : MapHeap Int Int × HMap)).toOption.map (·.1) =
      some ([[(1, 10), (2, 20)], []], ⟨some 1⟩) ∧
    HMap.len ([[(1, 10), (2, 20)], []] : MapHeap Int Int) ⟨some 0⟩ = 2 := by decide

end Gost
