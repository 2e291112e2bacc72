import Verif.Model.Nested
/-
Properties C127 (Clone of nested values) and C128 (Eq of nested values).
-/
namespace Gost.Nested

/-! ### Specification -/

/-- What a value of the type stands for: a value without pointers. -/
def Ty.Den : Ty → Type
  | .prim _ => PVal
  | .option t => Option t.Den
  | .result t => Except (Option Nat) t.Den
  | .pair k v => k.Den × v.Den
  | .vec t | .deque t | .list t => List t.Den
  | .hashMap _ v => List (PVal × v.Den)
  | .hashSet _ | .btreeSet _ => List PVal
  | .btreeMap _ _ => Unit

/-- Two lists are related position by position. -/
inductive All2 {α β : Type} (R : α → β → Prop) : List α → List β → Prop
  | nil : All2 R [] []
  | cons {a b as bs} (h : R a b) (t : All2 R as bs) : All2 R (a :: as) (b :: bs)

/-- The nodes from here on hold these values; all are at addresses from `n` on. -/
inductive Chain (n : Nat) (h : Heap) : Option Nat → List V → Prop
  | nil : Chain n h none []
  | cons {i v next vs} (hn : n ≤ i) (hi : h[i]? = some (.node v next)) (t : Chain n h next vs) :
      Chain n h (some i) (v :: vs)

/-- The value in the variable stands for `d`; all addresses that can be reached from it are `n` or more.  The entries
of a map and the keys of a set are in no particular order; no two keys are equal. -/
def Shows (n : Nat) (h : Heap) : (t : Ty) → V → t.Den → Prop
  | .prim _, v, d => v = .prim d
  | .option t, v, d =>
    match d with
    | none => v = .option none
    | some d => ∃ i x, v = .option (some i) ∧ n ≤ i ∧ h[i]? = some (.cell x) ∧ Shows n h t x d
  | .result t, v, d =>
    match d with
    | .error e => v = .result none e
    | .ok d => ∃ i x, v = .result (some i) none ∧ n ≤ i ∧ h[i]? = some (.cell x) ∧ Shows n h t x d
  | .pair s t, v, d => ∃ a b, v = .pair a b ∧ Shows n h s a d.1 ∧ Shows n h t b d.2
  | .vec t, v, d => ∃ i vs, v = .vec i ∧ n ≤ i ∧ h[i]? = some (.arr vs) ∧ All2 (Shows n h t) vs d
  | .deque t, v, d => ∃ i vs, v = .deque i ∧ n ≤ i ∧ h[i]? = some (.arr vs) ∧ All2 (Shows n h t) vs d
  | .list t, v, d => ∃ p vs, v = .list p vs.length ∧ Chain n h p vs ∧ All2 (Shows n h t) vs d
  | .hashMap _ t, v, d => (v = .hashMap none ∧ d = []) ∨ ∃ i es ds, v = .hashMap (some i) ∧ n ≤ i ∧
      h[i]? = some (.map es) ∧ List.Perm (α := PVal × t.Den) ds d ∧
      All2 (fun (e : PVal × V) (x : PVal × t.Den) => e.1 = x.1 ∧ Shows n h t e.2 x.2) es ds ∧
      List.Pairwise (fun (x y : PVal × t.Den) => x.1.eq y.1 = false ∧ y.1.eq x.1 = false) d
  | .hashSet _, v, d => (v = .hashSet none ∧ d = []) ∨ ∃ i ks, v = .hashSet (some i) ∧ n ≤ i ∧
      h[i]? = some (.keys ks) ∧ List.Perm (α := PVal) ks d ∧
      List.Pairwise (fun (x y : PVal) => x.eq y = false ∧ y.eq x = false) d
  | .btreeMap _ _, v, _ => v = .btreeMap
  | .btreeSet _, v, d => v = .btreeSet d

/-- What Clone can be used on, element by element: no element is an I128, a U128, a VecDeque or a BTreeMap, and no
BTreeSet has an element. -/
def CloneOk : (t : Ty) → t.Den → Prop
  | .prim k, _ => k ≠ .I128 ∧ k ≠ .U128
  | .option t, d => match d with | none => True | some x => CloneOk t x
  | .result t, d => match d with | .error _ => True | .ok x => CloneOk t x
  | .pair s t, d => CloneOk s d.1 ∧ CloneOk t d.2
  | .vec t, d => ∀ x : t.Den, List.Mem x d → CloneOk t x
  | .list t, d => ∀ x : t.Den, List.Mem x d → CloneOk t x
  | .deque _, _ | .btreeMap _ _, _ => False
  | .hashMap k t, d => ∀ x : PVal × t.Den, List.Mem x d → (k ≠ .I128 ∧ k ≠ .U128) ∧ CloneOk t x.2
  | .hashSet k, d => d = [] ∨ (k ≠ .I128 ∧ k ≠ .U128)
  | .btreeSet _, d => d = []

/-! ### Lemmas -/

theorem All2.imp {α β : Type} {R S : α → β → Prop} {as : List α} {bs : List β} (h : All2 R as bs)
    (hi : ∀ a b, R a b → S a b) : All2 S as bs := by
  induction h with
  | nil => exact .nil
  | cons h _ ih => exact .cons (hi _ _ h) ih
theorem All2.length {α β : Type} {R : α → β → Prop} {as : List α} {bs : List β} (h : All2 R as bs) :
    as.length = bs.length := by
  induction h with
  | nil => rfl
  | cons _ _ ih => simp [ih]
theorem All2.perm {α β : Type} {R : α → β → Prop} {as as' : List α} (hp : as'.Perm as) :
    ∀ {bs : List β}, All2 R as bs → ∃ bs' : List β, bs'.Perm bs ∧ All2 R as' bs' := by
  induction hp with
  | nil => intro bs h; exact ⟨bs, .refl _, h⟩
  | cons x _ ih =>
    intro bs h
    cases h with
    | cons h t =>
      obtain ⟨bs', p, r⟩ := ih t
      exact ⟨_ :: bs', p.cons _, .cons h r⟩
  | swap x y l =>
    intro bs h
    cases h with
    | cons h t =>
      cases t with
      | cons h' t => exact ⟨_, .swap _ _ _, .cons h' (.cons h t)⟩
  | trans _ _ ih1 ih2 =>
    intro bs h
    obtain ⟨bs1, p1, r1⟩ := ih2 h
    obtain ⟨bs2, p2, r2⟩ := ih1 r1
    exact ⟨bs2, p2.trans p1, r2⟩

theorem Chain.agree {n m : Nat} {h h' : Heap} (hm : m ≤ n) (ha : ∀ i o, n ≤ i → h[i]? = some o → h'[i]? = some o)
    {p : Option Nat} {vs : List V} (c : Chain n h p vs) : Chain m h' p vs := by
  induction c with
  | nil => exact .nil
  | cons hn hi _ ih => exact .cons (Nat.le_trans hm hn) (ha _ _ hn hi) ih

/-- A value shows the same in every heap that has the same at the addresses from `n` on. -/
theorem Shows.agree {n m : Nat} {h h' : Heap} (hm : m ≤ n)
    (ha : ∀ i o, n ≤ i → h[i]? = some o → h'[i]? = some o) {t : Ty} :
    ∀ {v : V} {d : t.Den}, Shows n h t v d → Shows m h' t v d := by
  induction t with
  | prim k => exact fun s => s
  | option t ih =>
    intro v d s
    match d, s with
    | none, s => exact s
    | some d, ⟨i, x, e, hn, hi, sx⟩ => exact ⟨i, x, e, Nat.le_trans hm hn, ha i _ hn hi, ih sx⟩
  | result t ih =>
    intro v d s
    match d, s with
    | .error _, s => exact s
    | .ok d, ⟨i, x, e, hn, hi, sx⟩ => exact ⟨i, x, e, Nat.le_trans hm hn, ha i _ hn hi, ih sx⟩
  | pair k v ihk ihv =>
    intro v d s
    obtain ⟨a, b, e, sa, sb⟩ := s
    exact ⟨a, b, e, ihk sa, ihv sb⟩
  | vec t ih | deque t ih =>
    intro v d s
    obtain ⟨i, vs, e, hn, hi, sx⟩ := s
    exact ⟨i, vs, e, Nat.le_trans hm hn, ha i _ hn hi, sx.imp fun _ _ => ih⟩
  | list t ih =>
    intro v d s
    obtain ⟨p, vs, e, c, sx⟩ := s
    exact ⟨p, vs, e, c.agree hm ha, sx.imp fun _ _ => ih⟩
  | hashMap k t ih =>
    intro v d s
    rcases s with s | ⟨i, es, ds, e, hn, hi, p, sx, hd⟩
    · exact .inl s
    · exact .inr ⟨i, es, ds, e, Nat.le_trans hm hn, ha i _ hn hi, p, sx.imp fun _ _ h => ⟨h.1, ih h.2⟩, hd⟩
  | hashSet k =>
    intro v d s
    rcases s with s | ⟨i, ks, e, hn, hi, p, hd⟩
    · exact .inl s
    · exact .inr ⟨i, ks, e, Nat.le_trans hm hn, ha i _ hn hi, p, hd⟩
  | btreeMap k v _ => exact fun s => s
  | btreeSet k => exact fun s => s

theorem get_prefix {h h' : Heap} (hp : h <+: h') {i : Nat} {o : Obj} (hi : h[i]? = some o) : h'[i]? = some o := by
  obtain ⟨x, rfl⟩ := hp
  rw [List.getElem?_append_left (List.getElem?_eq_some_iff.1 hi).1]
  exact hi
theorem Shows.grow {n m : Nat} {h h' : Heap} (hm : m ≤ n) (hp : h <+: h') {t : Ty} {v : V} {d : t.Den}
    (s : Shows n h t v d) : Shows m h' t v d := s.agree hm fun _ _ _ => get_prefix hp

theorem Chain.unique {n : Nat} {h : Heap} {p : Option Nat} {vs ws : List V} (a : Chain n h p vs)
    (b : Chain n h p ws) : vs = ws := by
  induction a generalizing ws with
  | nil => cases b; rfl
  | cons _ hi _ ih =>
    cases b with
    | cons _ hi' t' =>
      rw [hi] at hi'
      cases hi'
      rw [ih t']

/-- The addresses of the nodes. -/
inductive Locs (h : Heap) : Option Nat → List Nat → List V → Prop
  | nil : Locs h none [] []
  | cons {i v next is vs} (hi : h[i]? = some (.node v next)) (t : Locs h next is vs) : Locs h (some i) (i :: is) (v :: vs)
theorem Chain.locs {n : Nat} {h : Heap} {p : Option Nat} {vs : List V} (c : Chain n h p vs) :
    ∃ is, Locs h p is vs := by
  induction c with
  | nil => exact ⟨[], .nil⟩
  | cons _ hi _ ih =>
    obtain ⟨is, l⟩ := ih
    exact ⟨_ :: is, .cons hi l⟩
theorem Locs.unique {h : Heap} {p : Option Nat} {is js : List Nat} {vs ws : List V} (a : Locs h p is vs)
    (b : Locs h p js ws) : is = js := by
  induction a generalizing js ws with
  | nil => cases b; rfl
  | cons hi _ ih =>
    cases b with
    | cons hi' t' =>
      rw [hi] at hi'
      cases hi'
      rw [ih t']
theorem Locs.suffix {h : Heap} {p : Option Nat} {is : List Nat} {vs : List V} (a : Locs h p is vs) {j : Nat}
    (hj : j ∈ is) : ∃ js ws, Locs h (some j) js ws ∧ js.length ≤ is.length := by
  induction a with
  | nil => cases hj
  | @cons i v next is vs hi t ih =>
    rcases List.mem_cons.1 hj with rfl | hj
    · exact ⟨_, _, .cons hi t, Nat.le_refl _⟩
    · obtain ⟨js, ws, l, hl⟩ := ih hj
      exact ⟨js, ws, l, by simp only [List.length_cons]; omega⟩
theorem Locs.nodup {h : Heap} {p : Option Nat} {is : List Nat} {vs : List V} (a : Locs h p is vs) : is.Nodup := by
  induction a with
  | nil => exact List.nodup_nil
  | @cons i v next is vs hi t ih =>
    refine List.nodup_cons.2 ⟨?_, ih⟩
    intro hm
    obtain ⟨js, ws, l, hl⟩ := t.suffix hm
    have := l.unique (Locs.cons hi t)
    rw [this] at hl
    simp only [List.length_cons] at hl
    omega
theorem Locs.lt {h : Heap} {p : Option Nat} {is : List Nat} {vs : List V} (a : Locs h p is vs) :
    ∀ i ∈ is, i < h.length := by
  induction a with
  | nil => intro i hi; cases hi
  | cons hi _ ih =>
    intro j hj
    rcases List.mem_cons.1 hj with rfl | hj
    · exact (List.getElem?_eq_some_iff.1 hi).1
    · exact ih j hj
theorem Locs.length {h : Heap} {p : Option Nat} {is : List Nat} {vs : List V} (a : Locs h p is vs) :
    is.length = vs.length := by
  induction a with
  | nil => rfl
  | cons _ _ ih => simp [ih]
theorem nodup_bound {is : List Nat} {n : Nat} (hd : is.Nodup) (hl : ∀ i ∈ is, i < n) : is.length ≤ n := by
  have : is ⊆ List.range n := fun i hi => List.mem_range.2 (hl i hi)
  simpa using hd.length_le_of_subset this
theorem Chain.bound {n : Nat} {h : Heap} {p : Option Nat} {vs : List V} (c : Chain n h p vs) :
    vs.length ≤ h.length := by
  obtain ⟨is, l⟩ := c.locs
  rw [← l.length]
  exact nodup_bound l.nodup l.lt
theorem walk_chain {n : Nat} {h : Heap} {p : Option Nat} {vs : List V} (c : Chain n h p vs) {fuel : Nat}
    (hf : vs.length ≤ fuel) : walk h fuel p = some vs := by
  induction c generalizing fuel with
  | nil => cases fuel <;> rfl
  | cons _ hi _ ih =>
    match fuel, hf with
    | fuel + 1, hf =>
      simp only [walk, hi]
      rw [ih (by simpa using hf)]
      rfl
theorem listValues_chain {n : Nat} {h : Heap} {p : Option Nat} {vs : List V} (c : Chain n h p vs) :
    listValues h p = .ok vs := by
  unfold listValues
  rw [walk_chain c c.bound]

/-! ### Clone -/

theorem kind_hasClone (k : Kind) : k.hasClone = true ↔ k ≠ .I128 ∧ k ≠ .U128 := by
  cases k <;> simp [Kind.hasClone]
theorem CloneOk.hasClone {t : Ty} {d : t.Den} (c : CloneOk t d) : t.hasClone = true := by
  cases t with
  | prim k => exact (kind_hasClone k).2 c
  | deque _ => exact c.elim
  | btreeMap _ _ => exact c.elim
  | _ => rfl

theorem read_some {β : Type} {h : Heap} {f : Obj → Option β} {i : Nat} {o : Obj} {b : β} (hi : h[i]? = some o)
    (hb : f o = some b) : read h f (some i) = .ok b := by
  simp [read, hi, hb]

variable {rng : RangeOrder}

/-- Clone of a value of the type works as it should wherever it can. -/
def Works (rng : RangeOrder) (t : Ty) : Prop :=
  ∀ {n : Nat} {h : Heap} {v : V} {d : t.Den}, Shows n h t v d → CloneOk t d →
    ∃ h' v', clone rng t h v = .ok (h', v') ∧ h <+: h' ∧ Shows h.length h' t v' d
/-- Clone does not return where it can not be used. -/
def Stops (rng : RangeOrder) (t : Ty) : Prop :=
  ∀ {n : Nat} {h : Heap} {v : V} {d : t.Den}, Shows n h t v d → t.hasClone = true → ¬ CloneOk t d →
    ∃ e, clone rng t h v = .error e

theorem cloneEach_works {t : Ty} (w : Works rng t) {method : End (Heap → V → End (Heap × V))}
    (hm : t.hasClone = true → method = .ok (clone rng t)) {n : Nat} {h0 : Heap} {vs : List V} {ds : List t.Den}
    (s : All2 (Shows n h0 t) vs ds) (c : ∀ x ∈ ds, CloneOk t x) {h : Heap} (hp : h0 <+: h) :
    ∃ h' vs', cloneEach method h vs = .ok (h', vs') ∧ h <+: h' ∧ All2 (Shows h.length h' t) vs' ds := by
  induction s generalizing h with
  | nil => exact ⟨h, [], rfl, List.prefix_refl _, .nil⟩
  | @cons v d vs ds sv _ ih =>
    have c0 := c d (.head _)
    obtain ⟨h1, v1, e1, p1, s1⟩ := w (sv.grow (Nat.le_refl _) hp) c0
    obtain ⟨h2, vs2, e2, p2, s2⟩ := ih (fun x hx => c x (.tail _ hx)) (hp.trans p1)
    refine ⟨h2, v1 :: vs2, ?_, p1.trans p2, .cons (s1.grow (Nat.le_refl _) p2) ?_⟩
    · rw [hm c0.hasClone] at e2 ⊢
      simp only [cloneEach, bind, Except.bind, e1, e2]
    · exact s2.imp fun _ _ s => s.grow p1.length_le (List.prefix_refl _)

theorem cloneEach_stops {t : Ty} (w : Works rng t) (st : Stops rng t) {method : End (Heap → V → End (Heap × V))}
    (hm : t.hasClone = true → method = .ok (clone rng t)) (hm' : t.hasClone = false → ∃ e, method = .error e)
    {n : Nat} {h0 : Heap} {vs : List V} {ds : List t.Den}
    (s : All2 (Shows n h0 t) vs ds) (c : ¬ ∀ x ∈ ds, CloneOk t x) {h : Heap} (hp : h0 <+: h) :
    ∃ e, cloneEach method h vs = .error e := by
  induction s generalizing h with
  | nil => exact (c fun x hx => nomatch hx).elim
  | @cons v d vs ds sv _ ih =>
    cases hc : t.hasClone with
    | false =>
      obtain ⟨e, he⟩ := hm' hc
      exact ⟨e, by simp only [cloneEach, he, bind, Except.bind]⟩
    | true =>
      by_cases c0 : CloneOk t d
      · obtain ⟨h1, v1, e1, p1, s1⟩ := w (sv.grow (Nat.le_refl _) hp) c0
        have c1 : ¬ ∀ x ∈ ds, CloneOk t x := by
          intro hc
          apply c
          intro x hx
          rcases List.mem_cons.1 hx with rfl | hx
          · exact c0
          · exact hc x hx
        obtain ⟨e, he⟩ := ih c1 (hp.trans p1)
        refine ⟨e, ?_⟩
        rw [hm hc] at he ⊢
        simp only [cloneEach, bind, Except.bind, e1, he]
      · obtain ⟨e, he⟩ := st (sv.grow (Nat.le_refl _) hp) hc c0
        exact ⟨e, by simp only [cloneEach, hm hc, bind, Except.bind, he]⟩

theorem cloneEntries_works {t : Ty} (w : Works rng t) {key : End Unit} (hk : key = .ok ())
    {method : End (Heap → V → End (Heap × V))}
    (hm : t.hasClone = true → method = .ok (clone rng t)) {n : Nat} {h0 : Heap} {es : List (PVal × V)}
    {ds : List (PVal × t.Den)}
    (s : All2 (fun (e : PVal × V) (x : PVal × t.Den) => e.1 = x.1 ∧ Shows n h0 t e.2 x.2) es ds)
    (c : ∀ x ∈ ds, CloneOk t x.2) {h : Heap} (hp : h0 <+: h) :
    ∃ h' es', cloneEntries key method h es = .ok (h', es') ∧ h <+: h' ∧
      All2 (fun (e : PVal × V) (x : PVal × t.Den) => e.1 = x.1 ∧ Shows h.length h' t e.2 x.2) es' ds := by
  induction s generalizing h with
  | nil => exact ⟨h, [], rfl, List.prefix_refl _, .nil⟩
  | @cons v d vs ds sv _ ih =>
    have c0 := c d (.head _)
    obtain ⟨h1, v1, e1, p1, s1⟩ := w (sv.2.grow (Nat.le_refl _) hp) c0
    obtain ⟨h2, vs2, e2, p2, s2⟩ := ih (fun x hx => c x (.tail _ hx)) (hp.trans p1)
    refine ⟨h2, (v.1, v1) :: vs2, ?_, p1.trans p2, .cons ⟨sv.1, s1.grow (Nat.le_refl _) p2⟩ ?_⟩
    · obtain ⟨k, v⟩ := v
      rw [hk, hm c0.hasClone] at e2 ⊢
      simp only [cloneEntries, bind, Except.bind, e1, e2]
    · exact s2.imp fun _ _ s => ⟨s.1, s.2.grow p1.length_le (List.prefix_refl _)⟩

theorem cloneEntries_stops {t : Ty} (w : Works rng t) (st : Stops rng t) {key : End Unit} {b : Prop}
    (hk : b → key = .ok ()) (hk' : ¬ b → ∃ e, key = .error e) {method : End (Heap → V → End (Heap × V))}
    (hm : t.hasClone = true → method = .ok (clone rng t)) (hm' : t.hasClone = false → ∃ e, method = .error e)
    {n : Nat} {h0 : Heap} {es : List (PVal × V)} {ds : List (PVal × t.Den)}
    (s : All2 (fun (e : PVal × V) (x : PVal × t.Den) => e.1 = x.1 ∧ Shows n h0 t e.2 x.2) es ds)
    (c : ¬ ∀ x ∈ ds, b ∧ CloneOk t x.2) {h : Heap} (hp : h0 <+: h) :
    ∃ e, cloneEntries key method h es = .error e := by
  induction s generalizing h with
  | nil => exact (c fun x hx => nomatch hx).elim
  | @cons v d vs ds sv _ ih =>
    obtain ⟨k, v⟩ := v
    by_cases hb : b
    · cases hc : t.hasClone with
      | false =>
        obtain ⟨e, he⟩ := hm' hc
        exact ⟨e, by simp only [cloneEntries, hk hb, he, bind, Except.bind]⟩
      | true =>
        by_cases c0 : CloneOk t d.2
        · obtain ⟨h1, v1, e1, p1, s1⟩ := w (sv.2.grow (Nat.le_refl _) hp) c0
          have c1 : ¬ ∀ x ∈ ds, b ∧ CloneOk t x.2 := by
            intro hc
            apply c
            intro x hx
            rcases List.mem_cons.1 hx with rfl | hx
            · exact ⟨hb, c0⟩
            · exact hc x hx
          obtain ⟨e, he⟩ := ih c1 (hp.trans p1)
          refine ⟨e, ?_⟩
          rw [hk hb, hm hc] at he ⊢
          simp only [cloneEntries, bind, Except.bind, e1, he]
        · obtain ⟨e, he⟩ := st (sv.2.grow (Nat.le_refl _) hp) hc c0
          exact ⟨e, by simp only [cloneEntries, hk hb, hm hc, bind, Except.bind, he]⟩
    · obtain ⟨e, he⟩ := hk' hb
      exact ⟨e, by simp only [cloneEntries, he, bind, Except.bind]⟩

theorem pushNodes_chain (n : Nat) (h : Heap) (hn : n ≤ h.length) (vs : List V) :
    h <+: (pushNodes h vs).1 ∧ Chain n (pushNodes h vs).1 (pushNodes h vs).2 vs := by
  induction vs with
  | nil => exact ⟨List.prefix_refl _, .nil⟩
  | cons v vs ih =>
    obtain ⟨p, c⟩ := ih
    refine ⟨p.trans (List.prefix_append _ _), ?_⟩
    refine .cons (next := (pushNodes h vs).2) (Nat.le_trans hn p.length_le) ?_ ?_
    · simp [pushNodes]
    · exact c.agree (Nat.le_refl _) fun i o _ hi => get_prefix (List.prefix_append _ _) hi

theorem new_obj (h : Heap) (o : Obj) : (h ++ [o])[h.length]? = some o := by simp

theorem clone_works (rng : RangeOrder) (t : Ty) : Works rng t := by
  have cast : ∀ {t : Ty}, t.hasClone = true → unwrap (castToClone t.hasClone (clone rng t)) = .ok (clone rng t) := by
    intro t ht
    rw [ht]
    rfl
  have cast' : ∀ {t : Ty}, t.hasClone = true → orPanic (castToClone t.hasClone (clone rng t)) = .ok (clone rng t) := by
    intro t ht
    rw [ht]
    rfl
  induction t with
  | prim k =>
    intro n h v d s _
    cases s
    exact ⟨h, .prim d, rfl, List.prefix_refl _, rfl⟩
  | option t ih =>
    intro n h v d s c
    match d, s with
    | none, s => cases s; exact ⟨h, _, rfl, List.prefix_refl _, rfl⟩
    | some d, ⟨i, x, e, hn, hi, sx⟩ =>
      subst e
      obtain ⟨h', v', e', p, s'⟩ := ih sx c
      refine ⟨h' ++ [.cell v'], .option (some h'.length), ?_, p.trans (List.prefix_append _ _), h'.length, v', rfl,
        p.length_le, new_obj .., s'.grow (Nat.le_refl _) (List.prefix_append _ _)⟩
      simp only [clone, cast (CloneOk.hasClone (t := t) c), read_some hi (f := Obj.cell?) rfl, bind, Except.bind, e']
  | result t ih =>
    intro n h v d s c
    match d, s with
    | .error e, s => cases s; exact ⟨h, _, rfl, List.prefix_refl _, rfl⟩
    | .ok d, ⟨i, x, e, hn, hi, sx⟩ =>
      subst e
      obtain ⟨h', v', e', p, s'⟩ := ih sx c
      refine ⟨h' ++ [.cell v'], .result (some h'.length) none, ?_, p.trans (List.prefix_append _ _), h'.length, v', rfl,
        p.length_le, new_obj .., s'.grow (Nat.le_refl _) (List.prefix_append _ _)⟩
      simp only [clone, cast (CloneOk.hasClone (t := t) c), read_some hi (f := Obj.cell?) rfl, bind, Except.bind, e']
  | pair k t ihk iht =>
    intro n h v d s c
    obtain ⟨a, b, e, sa, sb⟩ := s
    subst e
    obtain ⟨h1, a1, e1, p1, s1⟩ := ihk sa c.1
    obtain ⟨h2, b2, e2, p2, s2⟩ := iht (sb.grow (Nat.le_refl _) p1) c.2
    refine ⟨h2, .pair a1 b2, ?_, p1.trans p2, a1, b2, rfl, s1.grow (Nat.le_refl _) p2,
      s2.grow p1.length_le (List.prefix_refl _)⟩
    simp only [clone, cast c.1.hasClone, cast c.2.hasClone, bind, Except.bind, e1, e2]
  | vec t ih =>
    intro n h v d s c
    obtain ⟨i, vs, e, hn, hi, sx⟩ := s
    subst e
    obtain ⟨h', vs', e', p, s'⟩ := cloneEach_works ih cast sx c (List.prefix_refl h)
    refine ⟨h' ++ [.arr vs'], .vec h'.length, ?_, p.trans (List.prefix_append _ _), h'.length, vs', rfl,
      p.length_le, new_obj .., s'.imp fun _ _ s => s.grow (Nat.le_refl _) (List.prefix_append _ _)⟩
    simp only [clone, read_some hi (f := Obj.arr?) rfl, bind, Except.bind, e']
  | deque t ih => intro n h v d s c; exact c.elim
  | list t ih =>
    intro n h v d s c
    obtain ⟨q, vs, e, ch, sx⟩ := s
    subst e
    obtain ⟨h', vs', e', p, s'⟩ := cloneEach_works ih cast' sx c (List.prefix_refl h)
    obtain ⟨p2, ch2⟩ := pushNodes_chain h.length h' p.length_le vs'
    refine ⟨(pushNodes h' vs').1, .list (pushNodes h' vs').2 vs'.length, ?_, p.trans p2, _, vs', rfl, ch2,
      s'.imp fun _ _ s => s.grow (Nat.le_refl _) p2⟩
    simp only [clone, listValues_chain ch, bind, Except.bind, e']
  | hashMap k t ih =>
    intro n h v d s c
    have key : ∀ (es : List (PVal × V)) (ds : List (PVal × t.Den)), List.Perm (α := PVal × t.Den) ds d →
        All2 (fun (e : PVal × V) (x : PVal × t.Den) => e.1 = x.1 ∧ Shows n h t e.2 x.2) es ds →
        List.Pairwise (fun (x y : PVal × t.Den) => x.1.eq y.1 = false ∧ y.1.eq x.1 = false) d →
        ∃ h' es', cloneEntries (orPanic (castToClone k.hasClone ())) (orPanic (castToClone t.hasClone (clone rng t))) h
          (rng.order h es) = .ok (h', es') ∧ h <+: h' ∧ Shows h.length (h' ++ [.map es']) (.hashMap k t)
            (.hashMap (some h'.length)) d := by
      intro es ds hp sx hd
      obtain ⟨ds', hp', sx'⟩ := sx.perm (rng.perm h es)
      have hpd : List.Perm (α := PVal × t.Den) ds' d := hp'.trans hp
      cases hds : ds' with
      | nil =>
        subst hds
        cases hr : rng.order h es with
        | nil =>
          refine ⟨h, [], rfl, List.prefix_refl _, .inr ⟨h.length, [], [], rfl, Nat.le_refl _, new_obj .., hpd, .nil, hd⟩⟩
        | cons a as => rw [hr] at sx'; cases sx'
      | cons x xs =>
        have hk : orPanic (castToClone k.hasClone ()) = .ok () := by
          have hx : List.Mem x d := hpd.mem_iff.1 (hds ▸ List.mem_cons_self ..)
          rw [(kind_hasClone k).2 (c x hx).1]
          rfl
        obtain ⟨h', es', e', p, s'⟩ := cloneEntries_works ih hk cast' sx'
          (fun x hx => (c x (hpd.mem_iff.1 hx)).2) (List.prefix_refl h)
        exact ⟨h', es', e', p, .inr ⟨h'.length, es', ds', rfl, p.length_le, new_obj .., hpd,
          s'.imp fun _ _ s => ⟨s.1, s.2.grow (Nat.le_refl _) (List.prefix_append _ _)⟩, hd⟩⟩
    rcases s with ⟨rfl, rfl⟩ | ⟨i, es, ds, rfl, hn, hi, hp, sx, hd⟩
    · obtain ⟨h', es', e', p, s'⟩ := key [] [] (.refl _) .nil .nil
      refine ⟨h' ++ [.map es'], .hashMap (some h'.length), ?_, p.trans (List.prefix_append _ _), s'⟩
      simp only [clone, Option.isNone_none, if_true, bind, Except.bind, e']
    · obtain ⟨h', es', e', p, s'⟩ := key es ds hp sx hd
      refine ⟨h' ++ [.map es'], .hashMap (some h'.length), ?_, p.trans (List.prefix_append _ _), s'⟩
      simp only [clone, Option.isNone_some, read_some hi (f := Obj.map?) rfl, bind, Except.bind]
      rw [if_neg (by simp)]
      simp only [e']
  | hashSet k =>
    intro n h v d s c
    have key : ∀ ks : List PVal, List.Perm (α := PVal) ks d →
        ((rng.order h ks).isEmpty || k.hasClone) = true ∧ List.Perm (α := PVal) (rng.order h ks) d := by
      intro ks hp
      have hp' : List.Perm (α := PVal) (rng.order h ks) d := (rng.perm h ks).trans hp
      refine ⟨?_, hp'⟩
      rcases c with rfl | c
      · rw [hp'.eq_nil]; rfl
      · rw [(kind_hasClone k).2 c, Bool.or_true]
    rcases s with ⟨rfl, rfl⟩ | ⟨i, ks, rfl, hn, hi, hp, hd⟩
    · obtain ⟨e, p⟩ := key [] (.refl _)
      refine ⟨h ++ [.keys (rng.order h [])], .hashSet (some h.length), ?_, List.prefix_append _ _,
        .inr ⟨h.length, _, rfl, Nat.le_refl _, new_obj .., p, .nil⟩⟩
      simp only [clone, Option.isNone_none, if_true, bind, Except.bind, e]
    · obtain ⟨e, p⟩ := key ks hp
      refine ⟨h ++ [.keys (rng.order h ks)], .hashSet (some h.length), ?_, List.prefix_append _ _,
        .inr ⟨h.length, _, rfl, Nat.le_refl _, new_obj .., p, hd⟩⟩
      simp only [clone, Option.isNone_some, read_some hi (f := Obj.keys?) rfl, bind, Except.bind]
      rw [if_neg (by simp)]
      simp only [e, if_true]
  | btreeMap k t _ => intro n h v d s c; exact c.elim
  | btreeSet k =>
    intro n h v d s c
    cases s
    cases c
    exact ⟨h, _, rfl, List.prefix_refl _, rfl⟩

theorem clone_stops (rng : RangeOrder) (t : Ty) : Stops rng t := by
  have cast : ∀ {t : Ty}, t.hasClone = true → unwrap (castToClone t.hasClone (clone rng t)) = .ok (clone rng t) := by
    intro t ht
    rw [ht]
    rfl
  have castn : ∀ {t : Ty}, t.hasClone = false → ∃ e, unwrap (castToClone t.hasClone (clone rng t)) = .error e := by
    intro t ht
    rw [ht]
    exact ⟨_, rfl⟩
  have cast' : ∀ {t : Ty}, t.hasClone = true → orPanic (castToClone t.hasClone (clone rng t)) = .ok (clone rng t) := by
    intro t ht
    rw [ht]
    rfl
  have castn' : ∀ {t : Ty}, t.hasClone = false → ∃ e, orPanic (castToClone t.hasClone (clone rng t)) = .error e := by
    intro t ht
    rw [ht]
    exact ⟨_, rfl⟩
  induction t with
  | prim k =>
    intro n h v d s hc c
    exact (c ((kind_hasClone k).1 hc)).elim
  | option t ih =>
    intro n h v d s hc c
    match d, s with
    | none, s => exact (c trivial).elim
    | some d, ⟨i, x, e, hn, hi, sx⟩ =>
      subst e
      cases ht : t.hasClone with
      | false =>
        obtain ⟨e, he⟩ := castn ht
        exact ⟨e, by simp only [clone, he, bind, Except.bind]⟩
      | true =>
        obtain ⟨e, he⟩ := ih sx ht c
        exact ⟨e, by simp only [clone, cast ht, read_some hi (f := Obj.cell?) rfl, bind, Except.bind, he]⟩
  | result t ih =>
    intro n h v d s hc c
    match d, s with
    | .error _, s => exact (c trivial).elim
    | .ok d, ⟨i, x, e, hn, hi, sx⟩ =>
      subst e
      cases ht : t.hasClone with
      | false =>
        obtain ⟨e, he⟩ := castn ht
        exact ⟨e, by simp only [clone, he, bind, Except.bind]⟩
      | true =>
        obtain ⟨e, he⟩ := ih sx ht c
        exact ⟨e, by simp only [clone, cast ht, read_some hi (f := Obj.cell?) rfl, bind, Except.bind, he]⟩
  | pair k t ihk iht =>
    intro n h v d s hc c
    obtain ⟨a, b, e, sa, sb⟩ := s
    subst e
    cases hk : k.hasClone with
    | false =>
      obtain ⟨e, he⟩ := castn hk
      exact ⟨e, by simp only [clone, he, bind, Except.bind]⟩
    | true =>
      by_cases ck : CloneOk k d.1
      · obtain ⟨h1, a1, e1, p1, s1⟩ := clone_works rng k sa ck
        cases ht : t.hasClone with
        | false =>
          obtain ⟨e, he⟩ := castn ht
          exact ⟨e, by simp only [clone, cast hk, he, bind, Except.bind, e1]⟩
        | true =>
          obtain ⟨e, he⟩ := iht (sb.grow (Nat.le_refl _) p1) ht fun ct => c ⟨ck, ct⟩
          exact ⟨e, by simp only [clone, cast hk, cast ht, bind, Except.bind, e1, he]⟩
      · obtain ⟨e, he⟩ := ihk sa hk ck
        exact ⟨e, by simp only [clone, cast hk, bind, Except.bind, he]⟩
  | vec t ih =>
    intro n h v d s hc c
    obtain ⟨i, vs, e, hn, hi, sx⟩ := s
    subst e
    obtain ⟨e, he⟩ := cloneEach_stops (clone_works rng t) ih cast castn sx c (List.prefix_refl h)
    exact ⟨e, by simp only [clone, read_some hi (f := Obj.arr?) rfl, bind, Except.bind, he]⟩
  | deque t ih => intro n h v d s hc c; cases hc
  | list t ih =>
    intro n h v d s hc c
    obtain ⟨q, vs, e, ch, sx⟩ := s
    subst e
    obtain ⟨e, he⟩ := cloneEach_stops (clone_works rng t) ih cast' castn' sx c (List.prefix_refl h)
    exact ⟨e, by simp only [clone, listValues_chain ch, bind, Except.bind, he]⟩
  | hashMap k t ih =>
    intro n h v d s hc c
    rcases s with ⟨rfl, rfl⟩ | ⟨i, es, ds, rfl, hn, hi, hp, sx, hd⟩
    · exact (c fun x hx => nomatch hx).elim
    · obtain ⟨ds', hp', sx'⟩ := sx.perm (rng.perm h es)
      have hpd : List.Perm (α := PVal × t.Den) ds' d := hp'.trans hp
      have hk : (k ≠ .I128 ∧ k ≠ .U128) → orPanic (castToClone k.hasClone ()) = .ok () := by
        intro hk
        rw [(kind_hasClone k).2 hk]
        rfl
      have hk' : ¬ (k ≠ .I128 ∧ k ≠ .U128) → ∃ e, orPanic (castToClone k.hasClone ()) = .error e := by
        intro hk
        have : k.hasClone = false := by
          cases h : k.hasClone with
          | false => rfl
          | true => exact (hk ((kind_hasClone k).1 h)).elim
        rw [this]
        exact ⟨_, rfl⟩
      obtain ⟨e, he⟩ := cloneEntries_stops (clone_works rng t) ih hk hk' cast' castn' sx'
        (fun hx => c fun x hm => hx x (hpd.mem_iff.2 hm)) (List.prefix_refl h)
      refine ⟨e, ?_⟩
      simp only [clone, Option.isNone_some, read_some hi (f := Obj.map?) rfl, bind, Except.bind]
      rw [if_neg (by simp)]
      simp only [he]
  | hashSet k =>
    intro n h v d s hc c
    rcases s with ⟨rfl, rfl⟩ | ⟨i, ks, rfl, hn, hi, hp, hd⟩
    · exact (c (.inl rfl)).elim
    · have h1 : (rng.order h ks).isEmpty = false := by
        cases hr : rng.order h ks with
        | cons a as => rfl
        | nil =>
          have hp' : List.Perm (α := PVal) (rng.order h ks) d := (rng.perm h ks).trans hp
          rw [hr] at hp'
          exact (c (.inl hp'.symm.eq_nil)).elim
      have h2 : k.hasClone = false := by
        cases h : k.hasClone with
        | false => rfl
        | true => exact (c (.inr ((kind_hasClone k).1 h))).elim
      refine ⟨.panic .explicit, ?_⟩
      simp only [clone, Option.isNone_some, read_some hi (f := Obj.keys?) rfl, bind, Except.bind]
      rw [if_neg (by simp)]
      simp [h1, h2]
  | btreeMap k t _ => intro n h v d s hc c; cases hc
  | btreeSet k =>
    intro n h v d s hc c
    cases s
    have : List.isEmpty (α := PVal) d = false := by
      cases d with
      | nil => exact (c rfl).elim
      | cons a as => rfl
    cases hk : k.hasClone
    · exact ⟨.panic .explicit, by simp [clone, this, hk]⟩
    · exact ⟨.hang, by simp [clone, this, hk]⟩

/-! ### Eq -/

/-- Equality of what two values stand for, with `==` on the primitive values (so a NaN differs from itself). -/
def same : (t : Ty) → t.Den → t.Den → Bool
  | .prim _, d, e => PVal.eq d e
  | .option t, d, e =>
    match d, e with
    | none, none => true
    | some d, some e => same t d e
    | _, _ => false
  | .result t, d, e =>
    match d, e with
    | .error d, .error e => d == e
    | .ok d, .ok e => same t d e
    | _, _ => false
  | .pair s t, d, e => same s d.1 e.1 && same t d.2 e.2
  | .vec t, d, e => List.length (α := t.Den) d == List.length (α := t.Den) e &&
      List.all (List.zip (α := t.Den) (β := t.Den) d e) fun x => same t x.1 x.2
  | .deque t, d, e => List.length (α := t.Den) d == List.length (α := t.Den) e &&
      List.all (List.zip (α := t.Den) (β := t.Den) d e) fun x => same t x.1 x.2
  | .list t, d, e => List.length (α := t.Den) d == List.length (α := t.Den) e &&
      List.all (List.zip (α := t.Den) (β := t.Den) d e) fun x => same t x.1 x.2
  | .hashMap _ t, d, e => List.length (α := PVal × t.Den) d == List.length (α := PVal × t.Den) e &&
      List.all (α := PVal × t.Den) d fun x => List.any (α := PVal × t.Den) e fun y => x.1.eq y.1 && same t x.2 y.2
  | .hashSet _, d, e => List.length (α := PVal) d == List.length (α := PVal) e &&
      List.all (α := PVal) d fun x => List.any (α := PVal) e fun y => x.eq y
  | .btreeMap _ _, _, _ => true
  | .btreeSet _, d, e => List.length (α := PVal) d == List.length (α := PVal) e &&
      List.all (α := PVal) d fun x => List.any (α := PVal) e fun y => x.eq y

/-- All types a value is made of have a method Eq: none is Complex64, Complex128 or BTreeMap. -/
def EqAll : Ty → Bool
  | .prim k => k ≠ .Complex64 && k ≠ .Complex128
  | .option t | .result t | .vec t | .deque t | .list t | .hashMap _ t => EqAll t
  | .pair s t => EqAll s && EqAll t
  | .hashSet _ | .btreeSet _ => true
  | .btreeMap _ _ => false

theorem EqAll.hasEq {t : Ty} (h : EqAll t = true) : t.hasEq = true := by
  cases t with
  | prim k => cases k <;> first | rfl | cases h
  | btreeMap _ _ => cases h
  | _ => rfl

theorem float_eq_trans {a b c : GoFloat 11 52} (h1 : a.eq b = true) (h2 : a.eq c = true) : b.eq c = true := by
  simp only [GoFloat.eq, Bool.and_eq_true, decide_eq_true_eq] at h1 h2 ⊢
  exact ⟨⟨h1.1.2, h2.1.2⟩, h1.2.symm.trans h2.2⟩
theorem PVal.eq_trans {a b c : PVal} (h1 : a.eq b = true) (h2 : a.eq c = true) : b.eq c = true := by
  match a, b, c with
  | .num a, .num b, .num c => simp only [PVal.eq, beq_iff_eq] at h1 h2 ⊢; exact h1.symm.trans h2
  | .str a, .str b, .str c => simp only [PVal.eq, beq_iff_eq] at h1 h2 ⊢; exact h1.symm.trans h2
  | .float a, .float b, .float c => exact float_eq_trans h1 h2
  | .complex a b, .complex c d, .complex e f =>
    simp only [PVal.eq, Bool.and_eq_true] at h1 h2 ⊢
    exact ⟨float_eq_trans h1.1 h2.1, float_eq_trans h1.2 h2.2⟩

/-- Eq of values of the type says whether they stand for the same. -/
def Tells (rng : RangeOrder) (t : Ty) : Prop :=
  ∀ {n m : Nat} {h : Heap} {v w : V} {d e : t.Den}, Shows n h t v d → Shows m h t w e →
    eq rng h t v w = .ok (same t d e)

theorem eqEach_tells {t : Ty} (w : Tells rng t) {n m : Nat} {h : Heap} {vs ws : List V} {ds es : List t.Den}
    (s1 : All2 (Shows n h t) vs ds) (s2 : All2 (Shows m h t) ws es) :
    eqEach (.ok (eq rng h t)) vs ws = .ok ((ds.zip es).all fun x => same t x.1 x.2) := by
  induction s1 generalizing ws es with
  | nil => cases s2 <;> rfl
  | cons s _ ih =>
    cases s2 with
    | nil => rfl
    | cons s' t' =>
      simp only [eqEach, bind, Except.bind, w s s', List.zip_cons_cons, List.all_cons]
      rw [ih t']
      split <;> rename_i hb <;> simp only [Bool.not_eq_true'] at hb
      · rw [hb]; rfl
      · rw [Bool.not_eq_false] at hb; rw [hb, Bool.true_and]

theorem find_entry {t : Ty} {h : Heap} {m : Nat} {fs : List (PVal × V)} {es : List (PVal × t.Den)}
    (s : All2 (fun (e : PVal × V) (x : PVal × t.Den) => e.1 = x.1 ∧ Shows m h t e.2 x.2) fs es) (k : PVal) :
    (fs.find? (fun e => k.eq e.1) = none ∧ ∀ y ∈ es, k.eq y.1 = false) ∨
    ∃ e y, fs.find? (fun e => k.eq e.1) = some e ∧ y ∈ es ∧ k.eq y.1 = true ∧ Shows m h t e.2 y.2 := by
  induction s with
  | nil => exact .inl ⟨rfl, fun y hy => nomatch hy⟩
  | @cons e x fs es r _ ih =>
    cases hk : k.eq e.1 with
    | true => exact .inr ⟨e, x, by simp [hk], .head _, r.1 ▸ hk, r.2⟩
    | false =>
      rcases ih with ⟨h1, h2⟩ | ⟨e', y, h1, h2, h3, h4⟩
      · refine .inl ⟨by simp [hk, h1], ?_⟩
        intro y hy
        rcases List.mem_cons.1 hy with rfl | hy
        · exact r.1 ▸ hk
        · exact h2 y hy
      · exact .inr ⟨e', y, by simp [hk, h1], .tail _ h2, h3, h4⟩

theorem eqEntries_tells {t : Ty} (w : Tells rng t) {n m : Nat} {h : Heap} {vs fs : List (PVal × V)}
    {ds es es0 : List (PVal × t.Den)}
    (s1 : All2 (fun (e : PVal × V) (x : PVal × t.Den) => e.1 = x.1 ∧ Shows n h t e.2 x.2) vs ds)
    (s2 : All2 (fun (e : PVal × V) (x : PVal × t.Den) => e.1 = x.1 ∧ Shows m h t e.2 x.2) fs es)
    (hp : es.Perm es0) (hd : es0.Pairwise fun x y => x.1.eq y.1 = false ∧ y.1.eq x.1 = false) :
    eqEntries (.ok (eq rng h t)) fs vs = .ok (ds.all fun x => es0.any fun y => x.1.eq y.1 && same t x.2 y.2) := by
  induction s1 with
  | nil => rfl
  | @cons e x vs ds r _ ih =>
    obtain ⟨k, v⟩ := e
    simp only [eqEntries, List.all_cons]
    rcases find_entry s2 k with ⟨h1, h2⟩ | ⟨f, y, h1, h2, h3, h4⟩
    · rw [h1]
      have : (es0.any fun y => x.1.eq y.1 && same t x.2 y.2) = false := by
        rw [List.any_eq_false]
        intro y hy
        have := h2 y (hp.mem_iff.2 hy)
        rw [show k = x.1 from r.1] at this
        simp [this]
      rw [this]
      rfl
    · have hk : k = x.1 := r.1
      rw [h1]
      have hs : (es0.any fun y => x.1.eq y.1 && same t x.2 y.2) = same t x.2 y.2 := by
        cases hs : same t x.2 y.2 with
        | true =>
          rw [List.any_eq_true]
          exact ⟨y, hp.mem_iff.1 h2, by rw [← hk, h3, hs]; rfl⟩
        | false =>
          rw [List.any_eq_false]
          intro z hz hb
          simp only [Bool.and_eq_true] at hb
          have hyz : y.1.eq z.1 = true := PVal.eq_trans (hk ▸ h3) hb.1
          have : z = y := by
            apply Classical.byContradiction
            intro hne
            have hy := hp.mem_iff.1 h2
            have key : ∀ (l : List (PVal × t.Den)), l.Pairwise (fun x y => x.1.eq y.1 = false ∧ y.1.eq x.1 = false) →
                y ∈ l → z ∈ l → y.1.eq z.1 = false := by
              intro l hl
              induction hl with
              | nil => intro hy; cases hy
              | @cons a l ha _ ih =>
                intro hy hz
                rcases List.mem_cons.1 hy with hy1 | hy1
                · subst hy1
                  rcases List.mem_cons.1 hz with hz1 | hz1
                  · exact (hne hz1).elim
                  · exact (ha z hz1).1
                · rcases List.mem_cons.1 hz with hz1 | hz1
                  · subst hz1
                    exact (ha y hy1).2
                  · exact ih hy1 hz1
            rw [key es0 hd hy hz] at hyz
            cases hyz
          rw [this, hs] at hb
          cases hb.2
      simp only [bind, Except.bind]
      rw [w r.2 h4, hs, ih]
      cases same t x.2 y.2 <;> simp

theorem all_perm {α : Type} {l l' : List α} (p : l.Perm l') (f : α → Bool) : l.all f = l'.all f := by
  rw [Bool.eq_iff_iff, List.all_eq_true, List.all_eq_true]
  exact ⟨fun h x hx => h x (p.mem_iff.2 hx), fun h x hx => h x (p.mem_iff.1 hx)⟩
theorem any_perm {α : Type} {l l' : List α} (p : l.Perm l') (f : α → Bool) : l.any f = l'.any f := by
  rw [Bool.eq_iff_iff, List.any_eq_true, List.any_eq_true]
  exact ⟨fun ⟨x, hx, h⟩ => ⟨x, p.mem_iff.1 hx, h⟩, fun ⟨x, hx, h⟩ => ⟨x, p.mem_iff.2 hx, h⟩⟩

theorem eq_tells (rng : RangeOrder) (t : Ty) (ha : EqAll t = true) : Tells rng t := by
  have cast : ∀ {t : Ty} {h : Heap}, EqAll t = true → unwrap (castToEq t.hasEq (eq rng h t)) = .ok (eq rng h t) := by
    intro t h ht
    rw [EqAll.hasEq ht]
    rfl
  have cast' : ∀ {t : Ty} {h : Heap}, EqAll t = true → orPanic (castToEq t.hasEq (eq rng h t)) = .ok (eq rng h t) := by
    intro t h ht
    rw [EqAll.hasEq ht]
    rfl
  induction t with
  | prim k =>
    intro n m h v w d e s1 s2
    cases s1
    cases s2
    rfl
  | option t ih =>
    intro n m h v w d e s1 s2
    match d, e, s1, s2 with
    | none, none, s1, s2 => cases s1; cases s2; rfl
    | none, some e, s1, ⟨i, x, hw, hn, hi, sx⟩ => cases s1; subst hw; rfl
    | some d, none, ⟨i, x, hw, hn, hi, sx⟩, s2 => cases s2; subst hw; rfl
    | some d, some e, ⟨i, x, hv, _, hi, sx⟩, ⟨j, y, hw, _, hj, sy⟩ =>
      subst hv
      subst hw
      simp only [eq, read_some hi (f := Obj.cell?) rfl, read_some hj (f := Obj.cell?) rfl, cast (t := t) ha, bind, Except.bind]
      exact ih ha sx sy
  | result t ih =>
    intro n m h v w d e s1 s2
    match d, e, s1, s2 with
    | .error d, .error e, s1, s2 => cases s1; cases s2; rfl
    | .error d, .ok e, s1, ⟨i, x, hw, hn, hi, sx⟩ => cases s1; subst hw; rfl
    | .ok d, .error e, ⟨i, x, hw, hn, hi, sx⟩, s2 => cases s2; subst hw; rfl
    | .ok d, .ok e, ⟨i, x, hv, _, hi, sx⟩, ⟨j, y, hw, _, hj, sy⟩ =>
      subst hv
      subst hw
      simp only [eq, read_some hi (f := Obj.cell?) rfl, read_some hj (f := Obj.cell?) rfl, cast (t := t) ha, bind, Except.bind]
      exact ih ha sx sy
  | pair k t ihk iht =>
    intro n m h v w d e s1 s2
    obtain ⟨a, b, rfl, sa, sb⟩ := s1
    obtain ⟨a', b', rfl, sa', sb'⟩ := s2
    simp only [EqAll, Bool.and_eq_true] at ha
    simp only [eq, cast ha.1, cast ha.2, bind, Except.bind, ihk ha.1 sa sa', iht ha.2 sb sb']
    rfl
  | vec t ih | deque t ih =>
    intro n m h v w d e s1 s2
    obtain ⟨i, vs, rfl, _, hi, sx⟩ := s1
    obtain ⟨j, ws, rfl, _, hj, sy⟩ := s2
    simp only [eq, read_some hi (f := Obj.arr?) rfl, read_some hj (f := Obj.arr?) rfl, bind, Except.bind,
      cast (t := t) ha, same]
    rw [eqEach_tells (ih ha) sx sy, ← sx.length, ← sy.length]
    by_cases hl : vs.length = ws.length <;> simp [hl]
  | list t ih =>
    intro n m h v w d e s1 s2
    obtain ⟨p, vs, rfl, hp, sx⟩ := s1
    obtain ⟨q, ws, rfl, hq, sy⟩ := s2
    simp only [eq, listValues_chain hp, listValues_chain hq, bind, Except.bind, cast' (t := t) ha, same]
    rw [eqEach_tells (ih ha) sx sy, ← sx.length, ← sy.length]
    by_cases hl : vs.length = ws.length <;> simp [hl]
  | hashMap k t ih =>
    intro n m h v w d e s1 s2
    have get : ∀ {n : Nat} {v : V} {d : (Ty.hashMap k t).Den}, Shows n h (.hashMap k t) v d →
        ∃ p es ds, v = .hashMap p ∧ ((if p.isNone then .ok [] else read h Obj.map? p) : End (List (PVal × V))) = .ok es ∧
          List.Perm (α := PVal × t.Den) ds d ∧
          All2 (fun (e : PVal × V) (x : PVal × t.Den) => e.1 = x.1 ∧ Shows n h t e.2 x.2) es ds ∧
          List.Pairwise (fun (x y : PVal × t.Den) => x.1.eq y.1 = false ∧ y.1.eq x.1 = false) d := by
      intro n v d s
      rcases s with ⟨rfl, rfl⟩ | ⟨i, es, ds, rfl, hn, hi, hp, sx, hd⟩
      · exact ⟨none, [], [], rfl, rfl, .refl _, .nil, .nil⟩
      · exact ⟨some i, es, ds, rfl, read_some hi rfl, hp, sx, hd⟩
    obtain ⟨p, es, ds, rfl, r1, p1, a1, _⟩ := get s1
    obtain ⟨q, fs, es', rfl, r2, p2, a2, hd⟩ := get s2
    simp only [eq, r1, r2, bind, Except.bind, cast (t := t) ha, same]
    have l1 : List.length (α := PVal × t.Den) d = es.length := by rw [← p1.length_eq, ← a1.length]
    have l2 : List.length (α := PVal × t.Den) e = fs.length := by rw [← p2.length_eq, ← a2.length]
    obtain ⟨ds', hp', sx'⟩ := a1.perm (rng.perm h es)
    rw [eqEntries_tells (ih ha) sx' a2 p2 hd, all_perm (hp'.trans p1), l1, l2]
    by_cases hl : es.length = fs.length <;> simp [hl]
  | hashSet k =>
    intro n m h v w d e s1 s2
    have get : ∀ {n : Nat} {v : V} {d : (Ty.hashSet k).Den}, Shows n h (.hashSet k) v d →
        ∃ p ks, v = .hashSet p ∧ ((if p.isNone then .ok [] else read h Obj.keys? p) : End (List PVal)) = .ok ks ∧
          List.Perm (α := PVal) ks d := by
      intro n v d s
      rcases s with ⟨rfl, rfl⟩ | ⟨i, ks, rfl, hn, hi, hp, hd⟩
      · exact ⟨none, [], rfl, rfl, .refl _⟩
      · exact ⟨some i, ks, rfl, read_some hi rfl, hp⟩
    obtain ⟨p, ks, rfl, r1, p1⟩ := get s1
    obtain ⟨q, ls, rfl, r2, p2⟩ := get s2
    simp only [eq, r1, r2, bind, Except.bind, same]
    rw [all_perm ((rng.perm h ks).trans p1), ← p1.length_eq, ← p2.length_eq]
    have : ∀ k : PVal, (ls.any fun l => k.eq l) = List.any (α := PVal) e fun l => k.eq l := fun k => any_perm p2 _
    simp only [this]
    by_cases hl : ks.length = ls.length <;> simp [hl]
  | btreeMap k t _ => cases ha
  | btreeSet k =>
    intro n m h v w d e s1 s2
    cases s1
    cases s2
    simp only [eq, same]
    by_cases hl : List.length (α := PVal) d = List.length (α := PVal) e <;> simp [hl]

/-! ### C127 -/

/-- **C127 (partial)**: Clone returns exactly for the values of which no part is an I128, a U128, a VecDeque, a
BTreeMap or a BTreeSet with elements.  It leaves everything that was there before as it is, and the clone stands for
the same as the original.  Whatever is done later to anything that was not there before the call, the original still
stands for the same; whatever is done to anything that was there, the clone does.
Missing: Clone on all values (false, see below). -/
theorem C127_clone_partial (rng : RangeOrder) {t : Ty} {n : Nat} {h : Heap} {v : V} {d : t.Den}
    (hc : t.hasClone = true) (s : Shows n h t v d) :
    ((∃ h' v', clone rng t h v = .ok (h', v')) ↔ CloneOk t d) ∧
    ∀ h' v', clone rng t h v = .ok (h', v') →
      (∀ i, i < h.length → h'[i]? = h[i]?) ∧ Shows 0 h' t v' d ∧
      (∀ h'' : Heap, (∀ i, i < h.length → h''[i]? = h[i]?) → Shows n h'' t v d) ∧
      (∀ h'' : Heap, (∀ i, h.length ≤ i → h''[i]? = h'[i]?) → Shows h.length h'' t v' d) := by
  have key : ∀ h' v', clone rng t h v = .ok (h', v') → CloneOk t d := by
    intro h' v' e
    apply Classical.byContradiction
    intro c
    obtain ⟨e', he⟩ := clone_stops rng t s hc c
    rw [he] at e
    cases e
  refine ⟨⟨fun ⟨h', v', e⟩ => key h' v' e, fun c => ?_⟩, ?_⟩
  · obtain ⟨h', v', e, _⟩ := clone_works rng t s c
    exact ⟨h', v', e⟩
  · intro h' v' e
    obtain ⟨h1, v1, e1, p1, s1⟩ := clone_works rng t s (key h' v' e)
    rw [e1] at e
    cases e
    refine ⟨?_, s1.agree (Nat.zero_le _) fun i o _ hi => hi, ?_, ?_⟩
    · intro i hi
      obtain ⟨r, rfl⟩ := p1
      exact List.getElem?_append_left hi
    · intro h'' ha
      exact s.agree (Nat.le_refl _) fun i o _ hi => by rw [ha i (List.getElem?_eq_some_iff.1 hi).1, hi]
    · intro h'' ha
      exact s1.agree (Nat.le_refl _) fun i o hn hi => by rw [ha i hn, hi]

/-- **C127 (violation)**: Clone of a Vec, LinkedList or HashMap with an element panics when the type of the elements
is I128, U128, VecDeque or BTreeMap, and so do Clone of an Option, a Result or a Pair with such a value. -/
theorem C127_element_fails (rng : RangeOrder) {t : Ty}
    (ht : t = .prim .I128 ∨ t = .prim .U128 ∨ (∃ u, t = .deque u) ∨ ∃ k u, t = .btreeMap k u)
    {n : Nat} {h : Heap} :
    (∀ {v d ds}, Shows n h (.vec t) v (d :: ds) → ∃ p, clone rng (.vec t) h v = .error (.panic p)) ∧
    (∀ {v d ds}, Shows n h (.list t) v (d :: ds) → ∃ p, clone rng (.list t) h v = .error (.panic p)) ∧
    (∀ {k v d ds}, Shows n h (.hashMap k t) v (d :: ds) → ∃ p, clone rng (.hashMap k t) h v = .error (.panic p)) ∧
    (∀ {v d}, Shows n h (.option t) v (some d) → ∃ p, clone rng (.option t) h v = .error (.panic p)) ∧
    (∀ {v d}, Shows n h (.result t) v (.ok d) → ∃ p, clone rng (.result t) h v = .error (.panic p)) ∧
    (∀ {u v d}, Shows n h (.pair t u) v d → ∃ p, clone rng (.pair t u) h v = .error (.panic p)) := by
  have hc : t.hasClone = false := by
    rcases ht with rfl | rfl | ⟨u, rfl⟩ | ⟨k, u, rfl⟩ <;> rfl
  have h1 : unwrap (castToClone t.hasClone (clone rng t)) = .error (.panic .nilDeref) := by rw [hc]; rfl
  have h2 : orPanic (castToClone t.hasClone (clone rng t)) = .error (.panic .explicit) := by rw [hc]; rfl
  refine ⟨?_, ?_, ?_, ?_, ?_, ?_⟩
  · rintro v d ds ⟨i, vs, rfl, hn, hi, sx⟩
    cases sx
    exact ⟨.nilDeref, by simp only [clone, read_some hi (f := Obj.arr?) rfl, bind, Except.bind, cloneEach, h1]⟩
  · rintro v d ds ⟨p, vs, rfl, ch, sx⟩
    cases sx
    exact ⟨.explicit, by simp only [clone, listValues_chain ch, bind, Except.bind, cloneEach, h2]⟩
  · rintro k v d ds (⟨rfl, e⟩ | ⟨i, es, ds', rfl, hn, hi, hp, sx, hd⟩)
    · cases e
    · obtain ⟨ds2, hp', sx'⟩ := sx.perm (rng.perm h es)
      have hpd : List.Perm (α := PVal × t.Den) ds2 (d :: ds) := hp'.trans hp
      have hl := hpd.length_eq
      cases hr : rng.order h es with
      | nil =>
        rw [hr] at sx'
        cases sx'
        cases hl
      | cons a as =>
        cases hk : k.hasClone <;> refine ⟨.explicit, ?_⟩ <;>
          (simp only [clone, Option.isNone_some, read_some hi (f := Obj.map?) rfl, bind, Except.bind]
           rw [if_neg (by simp)]
           simp only [hr, hk, h2]
           rfl)
  · rintro v d ⟨i, x, rfl, _⟩
    exact ⟨.nilDeref, by simp only [clone, h1, bind, Except.bind]⟩
  · rintro v d ⟨i, x, rfl, _⟩
    exact ⟨.nilDeref, by simp only [clone, h1, bind, Except.bind]⟩
  · rintro u v d ⟨a, b, rfl, _⟩
    exact ⟨.nilDeref, by simp only [clone, h1, bind, Except.bind]⟩

/-- **C127 (violation)**: Clone of a Vec does not return when an element before which all can be cloned is a BTreeSet
with elements. -/
theorem C127_set_fails (rng : RangeOrder) {k : Kind} (hk : k ≠ .I128 ∧ k ≠ .U128) {n : Nat} {h : Heap} {v : V}
    {d : PVal} {ds : List PVal} {rest : List (List PVal)}
    (s : Shows n h (.vec (.btreeSet k)) v ((d :: ds) :: rest)) :
    clone rng (.vec (.btreeSet k)) h v = .error .hang := by
  obtain ⟨i, vs, rfl, hn, hi, sx⟩ := s
  cases sx with
  | cons r _ =>
    cases r
    simp only [clone, read_some hi (f := Obj.arr?) rfl, bind, Except.bind, cloneEach, Ty.hasClone, castToClone,
      unwrap, if_true, List.isEmpty_cons, (kind_hasClone k).2 hk, Bool.false_eq_true, if_false]

/-- **C127 (partial)**: Clone of a VecDeque (a pointer to the copy) has an array of its own and the same elements.
Missing: clones of the elements (false, see below). -/
theorem C127_deque_partial {t : Ty} {n : Nat} {h : Heap} {v : V} {d : List t.Den} (s : Shows n h (.deque t) v d) :
    ∃ vs : List V, dequeClone h v = .ok (h ++ [.arr vs], .deque h.length) ∧ All2 (Shows n h t) vs d ∧
      ∀ h'' : Heap, h''[h.length]? = some (.arr vs) → (∀ i, n ≤ i → i < h.length → h''[i]? = h[i]?) →
        Shows (min n h.length) h'' (.deque t) (.deque h.length) d := by
  obtain ⟨i, vs, rfl, hn, hi, sx⟩ := s
  refine ⟨vs, by simp only [dequeClone, read_some hi (f := Obj.arr?) rfl, bind, Except.bind], sx, ?_⟩
  intro h'' h1 h2
  refine ⟨h.length, vs, rfl, Nat.min_le_right _ _, h1, sx.imp fun a b r => ?_⟩
  exact r.agree (Nat.min_le_left _ _) fun j o hj hr => by rw [h2 j hj (List.getElem?_eq_some_iff.1 hr).1, hr]

/-- **C127 (violation)**: a VecDeque of Vecs and its clone share the Vecs: whatever a Vec of the original is
overwritten with shows in the clone. -/
theorem C127_deque_fails {k : Kind} {n : Nat} {h : Heap} {v : V} {d : List PVal} {ds : List (List PVal)}
    (s : Shows n h (.deque (.vec (.prim k))) v (d :: ds)) {h' : Heap} {v' : V} (e : dequeClone h v = .ok (h', v'))
    (new : List PVal) :
    ∃ i, i < h.length ∧ ∃ es es' : List (List PVal),
      Shows n (h'.set i (.arr (new.map .prim))) (.deque (.vec (.prim k))) v (new :: es) ∧
      Shows 0 (h'.set i (.arr (new.map .prim))) (.deque (.vec (.prim k))) v' (new :: es') := by
  have prims : ∀ (m : Nat) (h : Heap) (l : List PVal), All2 (Shows m h (.prim k)) (l.map V.prim) l := by
    intro m h l
    induction l with
    | nil => exact .nil
    | cons a l ih => exact .cons rfl ih
  obtain ⟨a, vs, rfl, hn, hi, sx⟩ := s
  simp only [dequeClone, read_some hi (f := Obj.arr?) rfl, bind, Except.bind, Except.ok.injEq, Prod.mk.injEq] at e
  obtain ⟨rfl, rfl⟩ := e
  cases sx with
  | @cons w _ ws _ r rs =>
    obtain ⟨i, xs, rfl, hin, hii, sxx⟩ := r
    have hlt := (List.getElem?_eq_some_iff.1 hii).1
    have hal := (List.getElem?_eq_some_iff.1 hi).1
    have hne : i ≠ a := by
      rintro rfl
      rw [hi] at hii
      cases hii
      cases sxx with
      | cons q _ => cases q
    have hna : i ≠ h.length := Nat.ne_of_lt hlt
    have rest : ∀ m, m ≤ n → ∀ {us : List V} {ds : List (List PVal)}, All2 (Shows n h (.vec (.prim k))) us ds →
        ∃ es : List (List PVal), All2 (Shows m ((h ++ [Obj.arr (V.vec i :: ws)]).set i (.arr (new.map .prim)))
          (.vec (.prim k))) us es := by
      intro m hm us ds r
      induction r with
      | nil => exact ⟨[], .nil⟩
      | @cons w d us ds q _ ih =>
        obtain ⟨es, ih⟩ := ih
        obtain ⟨j, ys, rfl, hj, hjj, sy⟩ := q
        have hjl := (List.getElem?_eq_some_iff.1 hjj).1
        by_cases hij : i = j
        · subst hij
          exact ⟨new :: es, .cons ⟨i, _, rfl, by omega, by simp [Nat.lt_succ_of_lt hlt], prims _ _ _⟩ ih⟩
        · refine ⟨d :: es, .cons ⟨j, ys, rfl, by omega, ?_, ?_⟩ ih⟩
          · rw [List.getElem?_set_ne hij, List.getElem?_append_left hjl, hjj]
          · exact sy.imp fun _ _ x => x
    have first : ∀ m, m ≤ n → Shows m ((h ++ [Obj.arr (V.vec i :: ws)]).set i (.arr (new.map .prim))) (.vec (.prim k))
        (.vec i) new := fun m hm => ⟨i, _, rfl, by omega, by simp [Nat.lt_succ_of_lt hlt], prims _ _ _⟩
    obtain ⟨es, r1⟩ := rest n (Nat.le_refl _) rs
    obtain ⟨es', r2⟩ := rest 0 (Nat.zero_le _) rs
    refine ⟨i, hlt, es, es', ⟨a, _, rfl, hn, ?_, .cons (first n (Nat.le_refl _)) r1⟩,
      ⟨h.length, _, rfl, Nat.zero_le _, ?_, .cons (first 0 (Nat.zero_le _)) r2⟩⟩
    · rw [List.getElem?_set_ne hne, List.getElem?_append_left hal, hi]
    · rw [List.getElem?_set_ne hna]
      simp

/-- A heap with the Vec [Some 1, None] of Options at 1 and the HashMap {"a": that Vec} at 2. -/
def heap0 : Heap := [.cell (.prim (.num 1)), .arr [.option (some 0), .option none], .map [(.str [97], .vec 1)]]
def type0 : Ty := .hashMap .String (.vec (.option (.prim .ISize)))
def den0 : type0.Den := [(.str [97], [some (.num 1), none])]
theorem shows0 : Shows 0 heap0 type0 (.hashMap (some 2)) den0 := by
  refine .inr ⟨2, [(.str [97], .vec 1)], [(.str [97], [some (.num 1), none])], rfl, Nat.zero_le _, rfl, .refl _,
    .cons ⟨rfl, 1, [.option (some 0), .option none], rfl, Nat.zero_le _, rfl,
      .cons ⟨0, .prim (.num 1), rfl, Nat.zero_le _, rfl, rfl⟩ (.cons rfl .nil)⟩ .nil,
    .cons (fun _ h => nomatch h) .nil⟩
def inOrder : RangeOrder := ⟨fun _ l => l, fun _ _ => .refl _⟩
example : clone inOrder type0 heap0 (.hashMap (some 2)) =
    .ok (heap0 ++ [.cell (.prim (.num 1)), .arr [.option (some 3), .option none], .map [(.str [97], .vec 4)]],
      .hashMap (some 5)) := rfl
example : ∃ h' v', clone inOrder type0 heap0 (.hashMap (some 2)) = .ok (h', v') :=
  (C127_clone_partial inOrder rfl shows0).1.2 (by
    intro x hx
    refine ⟨by decide, ?_⟩
    intro y hy
    cases hx with
    | head =>
      cases hy with
      | head => exact ⟨by decide, by decide⟩
      | tail _ hy =>
        cases hy with
        | head => trivial
        | tail _ hy => cases hy
    | tail _ hx => cases hx)
/-- A Vec with an I128. -/
example : clone inOrder (.vec (.prim .I128)) [.arr [.prim (.num 7)]] (.vec 0) = .error (.panic .nilDeref) := rfl
example : ∃ p, clone inOrder (.vec (.prim .I128)) [.arr [.prim (.num 7)]] (.vec 0) = .error (.panic p) :=
  (C127_element_fails inOrder (.inl rfl) (n := 0)).1 (d := PVal.num 7) (ds := [])
    ⟨0, _, rfl, Nat.le_refl _, rfl, .cons rfl .nil⟩
/-- A Vec of BTreeSets. -/
example : clone inOrder (.vec (.btreeSet .ISize)) [.arr [.btreeSet [.num 7]]] (.vec 0) = .error .hang :=
  C127_set_fails inOrder (n := 0) (by decide) (d := .num 7) (ds := []) (rest := [])
    ⟨0, _, rfl, Nat.le_refl _, rfl, .cons rfl .nil⟩
/-- A VecDeque of Vecs. -/
def heap1 : Heap := [.arr [.prim (.num 1), .prim (.num 2)], .arr [.vec 0]]
theorem shows1 : Shows 0 heap1 (.deque (.vec (.prim .ISize))) (.deque 1) [[PVal.num 1, .num 2]] :=
  ⟨1, _, rfl, Nat.zero_le _, rfl, .cons ⟨0, _, rfl, Nat.zero_le _, rfl, .cons rfl (.cons rfl .nil)⟩ .nil⟩
example : dequeClone heap1 (.deque 1) = .ok (heap1 ++ [.arr [.vec 0]], .deque 2) := rfl
example := C127_deque_fails shows1 (h' := heap1 ++ [.arr [.vec 0]]) (v' := .deque 2) rfl [.num 5]
example := C127_deque_partial shows1

/-! ### C128 -/

/-- **C128 (partial)**: Eq of two values says whether they stand for the same, for all types none of whose parts is
Complex64, Complex128 or BTreeMap, wherever the values lie (they may share parts).
Missing: those types (false, see below). -/
theorem C128_eq_partial (rng : RangeOrder) {t : Ty} (ht : EqAll t = true) {n m : Nat} {h : Heap} {v w : V}
    {d e : t.Den} (s1 : Shows n h t v d) (s2 : Shows m h t w e) : eq rng h t v w = .ok (same t d e) :=
  eq_tells rng t ht s1 s2

/-- No NaN in it: every primitive value is equal to itself. -/
def Whole : (t : Ty) → t.Den → Prop
  | .prim _, d => PVal.eq d d = true
  | .option t, d => match d with | none => True | some x => Whole t x
  | .result t, d => match d with | .error _ => True | .ok x => Whole t x
  | .pair s t, d => Whole s d.1 ∧ Whole t d.2
  | .vec t, d | .list t, d | .deque t, d => ∀ x : t.Den, List.Mem x d → Whole t x
  | .btreeMap _ _, _ => True
  | .hashMap _ t, d => ∀ x : PVal × t.Den, List.Mem x d → x.1.eq x.1 = true ∧ Whole t x.2
  | .hashSet _, d | .btreeSet _, d => ∀ x : PVal, List.Mem x d → x.eq x = true

theorem zip_self_all {α : Type} {f : α → α → Bool} (l : List α) (h : ∀ x ∈ l, f x x = true) :
    ((l.zip l).all fun x => f x.1 x.2) = true := by
  induction l with
  | nil => rfl
  | cons a l ih =>
    simp only [List.zip_cons_cons, List.all_cons, h a (.head _), Bool.true_and]
    exact ih fun x hx => h x (.tail _ hx)
theorem all_any_self {α : Type} {f : α → α → Bool} (l : List α) (h : ∀ x ∈ l, f x x = true) :
    (l.all fun x => l.any fun y => f x y) = true := by
  rw [List.all_eq_true]
  exact fun x hx => List.any_eq_true.2 ⟨x, hx, h x hx⟩

theorem same_self (t : Ty) (d : t.Den) (hw : Whole t d) : same t d d = true := by
  induction t with
  | prim k => exact hw
  | option t ih =>
    match d, hw with
    | none, _ => rfl
    | some d, hw => exact ih d hw
  | result t ih =>
    match d, hw with
    | .error d, _ => exact beq_self_eq_true d
    | .ok d, hw => exact ih d hw
  | pair s t ih1 ih2 => simp only [same, ih1 _ hw.1, ih2 _ hw.2, Bool.and_self]
  | vec t ih | list t ih | deque t ih =>
    simp only [same, beq_self_eq_true, Bool.true_and]
    exact zip_self_all (α := t.Den) d fun x hx => ih x (hw x hx)
  | hashMap k t ih =>
    simp only [same, beq_self_eq_true, Bool.true_and]
    refine all_any_self (α := PVal × t.Den) (f := fun x y => x.1.eq y.1 && same t x.2 y.2) d fun x hx => ?_
    rw [(hw x hx).1, ih _ (hw x hx).2]
    rfl
  | hashSet k | btreeSet k =>
    simp only [same, beq_self_eq_true, Bool.true_and]
    exact all_any_self (α := PVal) d hw
  | btreeMap k t _ => rfl

/-- **C128 (partial)**: Eq of a value and its clone is true, when no part of the value is NaN, for the types of
`C128_eq_partial`; and it stays true while neither changes. -/
theorem C128_clone_partial (rng rng' : RangeOrder) {t : Ty} (ht : EqAll t = true) {n : Nat} {h h' : Heap} {v v' : V}
    {d : t.Den} (s : Shows n h t v d) (hc : t.hasClone = true) (hw : Whole t d)
    (e : clone rng t h v = .ok (h', v')) : eq rng' h' t v v' = .ok true ∧ eq rng' h' t v' v = .ok true := by
  obtain ⟨h1, h2, h3, h4⟩ := (C127_clone_partial rng hc s).2 h' v' e
  have so := h3 h' h1
  rw [C128_eq_partial rng' ht so h2, C128_eq_partial rng' ht h2 so, same_self t d hw]
  exact ⟨rfl, rfl⟩

/-- **C128 (violation)**: Eq of two Vecs, VecDeques, LinkedLists of the same length with an element panics when the
elements are complex numbers or BTreeMaps, and so does Eq of two Options, Results or Pairs with such values. -/
theorem C128_element_fails (rng : RangeOrder) {t : Ty}
    (ht : t = .prim .Complex64 ∨ t = .prim .Complex128 ∨ ∃ k u, t = .btreeMap k u) {n : Nat} {h : Heap} :
    (∀ {v w d e ds es}, Shows n h (.vec t) v (d :: ds) → Shows n h (.vec t) w (e :: es) →
      List.length (α := t.Den) ds = List.length (α := t.Den) es → ∃ p, eq rng h (.vec t) v w = .error (.panic p)) ∧
    (∀ {v w d e ds es}, Shows n h (.deque t) v (d :: ds) → Shows n h (.deque t) w (e :: es) →
      List.length (α := t.Den) ds = List.length (α := t.Den) es → ∃ p, eq rng h (.deque t) v w = .error (.panic p)) ∧
    (∀ {v w d e ds es}, Shows n h (.list t) v (d :: ds) → Shows n h (.list t) w (e :: es) →
      List.length (α := t.Den) ds = List.length (α := t.Den) es → ∃ p, eq rng h (.list t) v w = .error (.panic p)) ∧
    (∀ {v w d e}, Shows n h (.option t) v (some d) → Shows n h (.option t) w (some e) →
      ∃ p, eq rng h (.option t) v w = .error (.panic p)) ∧
    (∀ {v w d e}, Shows n h (.result t) v (.ok d) → Shows n h (.result t) w (.ok e) →
      ∃ p, eq rng h (.result t) v w = .error (.panic p)) ∧
    (∀ {u v w d e}, Shows n h (.pair t u) v d → Shows n h (.pair t u) w e →
      ∃ p, eq rng h (.pair t u) v w = .error (.panic p)) := by
  have hc : t.hasEq = false := by
    rcases ht with rfl | rfl | ⟨k, u, rfl⟩ <;> rfl
  have h1 : unwrap (castToEq t.hasEq (eq rng h t)) = .error (.panic .nilDeref) := by rw [hc]; rfl
  have h2 : orPanic (castToEq t.hasEq (eq rng h t)) = .error (.panic .explicit) := by rw [hc]; rfl
  refine ⟨?_, ?_, ?_, ?_, ?_, ?_⟩
  · rintro v w d e ds es ⟨i, vs, rfl, _, hi, sx⟩ ⟨j, ws, rfl, _, hj, sy⟩ hl
    cases sx with
    | cons _ sx =>
      cases sy with
      | cons _ sy =>
        have := sx.length
        have := sy.length
        refine ⟨.nilDeref, ?_⟩
        simp only [eq, read_some hi (f := Obj.arr?) rfl, read_some hj (f := Obj.arr?) rfl, bind, Except.bind,
          List.length_cons]
        rw [if_neg (by omega)]
        simp only [eqEach, h1, bind, Except.bind]
  · rintro v w d e ds es ⟨i, vs, rfl, _, hi, sx⟩ ⟨j, ws, rfl, _, hj, sy⟩ hl
    cases sx with
    | cons _ sx =>
      cases sy with
      | cons _ sy =>
        have := sx.length
        have := sy.length
        refine ⟨.nilDeref, ?_⟩
        simp only [eq, read_some hi (f := Obj.arr?) rfl, read_some hj (f := Obj.arr?) rfl, bind, Except.bind,
          List.length_cons]
        rw [if_neg (by omega)]
        simp only [eqEach, h1, bind, Except.bind]
  · rintro v w d e ds es ⟨p, vs, rfl, hp, sx⟩ ⟨q, ws, rfl, hq, sy⟩ hl
    cases sx with
    | cons _ sx =>
      cases sy with
      | cons _ sy =>
        have := sx.length
        have := sy.length
        refine ⟨.explicit, ?_⟩
        simp only [eq, List.length_cons]
        rw [if_neg (by omega)]
        simp only [listValues_chain hp, listValues_chain hq, eqEach, h2, bind, Except.bind]
  · rintro v w d e ⟨i, x, rfl, _, hi, _⟩ ⟨j, y, rfl, _, hj, _⟩
    exact ⟨.nilDeref, by simp only [eq, read_some hi (f := Obj.cell?) rfl, h1, bind, Except.bind]⟩
  · rintro v w d e ⟨i, x, rfl, _, hi, _⟩ ⟨j, y, rfl, _, hj, _⟩
    exact ⟨.nilDeref, by simp only [eq, read_some hi (f := Obj.cell?) rfl, h1, bind, Except.bind]⟩
  · rintro u v w d e ⟨a, b, rfl, _⟩ ⟨a', b', rfl, _⟩
    exact ⟨.nilDeref, by simp only [eq, h1, bind, Except.bind]⟩

example : eq inOrder heap0 type0 (.hashMap (some 2)) (.hashMap (some 2)) = .ok true :=
  C128_eq_partial inOrder rfl shows0 shows0
/-- Different lengths, different elements. -/
example : eq inOrder (heap0 ++ [.arr [.option (some 0)], .map [(.str [97], .vec 3)]]) type0 (.hashMap (some 2))
    (.hashMap (some 4)) = .ok false := rfl
example : same (.vec (.option (.prim .ISize))) [some (.num 1), none] [some (.num 1), some (.num 1)] = false := rfl
example : same type0 den0 den0 = true := rfl
example : eq inOrder (heap0 ++ [.cell (.prim (.num 1)), .arr [.option (some 3), .option none],
    .map [(.str [97], .vec 4)]]) type0 (.hashMap (some 2)) (.hashMap (some 5)) = .ok true :=
  (C128_clone_partial inOrder inOrder rfl shows0 rfl (by
    intro x hx
    cases hx with
    | head =>
      refine ⟨rfl, fun y hy => ?_⟩
      cases hy with
      | head => exact (rfl : PVal.eq (.num 1) (.num 1) = true)
      | tail _ hy =>
        cases hy with
        | head => trivial
        | tail _ hy => cases hy
    | tail _ hx => cases hx) rfl).1
/-- Two Options of complex numbers. -/
example (x : GoFloat 11 52) : ∃ p, eq inOrder [.cell (.prim (.complex x x))] (.option (.prim .Complex64)) (.option (some 0))
    (.option (some 0)) = .error (.panic p) :=
  (C128_element_fails inOrder (.inl rfl) (n := 0)).2.2.2.1 (d := PVal.complex x x)
    (e := PVal.complex x x) ⟨0, _, rfl, Nat.le_refl _, rfl, rfl⟩ ⟨0, _, rfl, Nat.le_refl _, rfl, rfl⟩

end Gost.Nested
