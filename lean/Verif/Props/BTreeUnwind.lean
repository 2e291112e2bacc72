import Verif.Lemmas.BTreeUnwind
import Verif.Props.BTreeMap
/-
Property C139: a BTreeMap whose Cmp method panics.
-/
namespace Gost
open Spec BTree

variable {c κ ν σ β γ δ : Type} {cmp : κ → κ → Ordering} {cmpE : κ → κ → Eff σ Ordering}

namespace Spec
/-- `L` is `l` with one of its entries doubled. -/
def Doubled (l L : List (κ × ν)) : Prop := ∃ P e S, l = P ++ e :: S ∧ L = P ++ e :: e :: S
end Spec

namespace Unwind

theorem Triple.and {E E' : Panic → Prop} {P : c → Prop} {x : Eff (c × σ) β} {Q Q' : β → c → Prop} {X X' : c → Prop}
    (h : Triple E P x Q X) (h' : Triple E' P x Q' X') :
    Triple (fun e => E e ∧ E' e) P x (fun b v => Q b v ∧ Q' b v) (fun v => X v ∧ X' v) := by
  intro v s hv
  have h1 := h v s hv
  have h2 := h' v s hv
  rcases hx : x (v, s) with ⟨e | b, s'⟩
  · rw [hx] at h1 h2; exact ⟨⟨h1.1, h2.1⟩, h1.2, h2.2⟩
  · rw [hx] at h1 h2; exact ⟨h1, h2⟩
theorem Triple.post {E E' : Panic → Prop} {P : c → Prop} {x : Eff (c × σ) β} {Q Q' : β → c → Prop} {X X' : c → Prop}
    (h : Triple E P x Q X) (hE : ∀ e, E e → E' e) (hQ : ∀ b v, Q b v → Q' b v) (hX : ∀ v, X v → X' v) :
    Triple E' P x Q' X' := by
  intro v s hv
  have h1 := h v s hv
  rcases hx : x (v, s) with ⟨e | b, s'⟩
  · rw [hx] at h1; exact ⟨hE _ h1.1, hX _ h1.2⟩
  · rw [hx] at h1; exact hQ _ _ h1
theorem Triple.cmp_bind' {E : Panic → Prop} {P : c → Prop} {f : Ordering → Eff (c × σ) β} {Q : β → c → Prop} {X : c → Prop} {a b : κ}
    (hX : ∀ v s e, P v → (cmpE a b s).1 = .error e → E e ∧ X v)
    (h : ∀ o s s', cmpE a b s = (.ok o, s') → Triple E P (f o) Q X) :
    Triple E P (call (cmpE a b) >>= f) Q X := by
  intro v s hp
  rw [Eff.bind_run]
  unfold call
  rcases hr : cmpE a b s with ⟨e | o, s'⟩
  · simp only
    exact hX v s e hp (by rw [hr])
  · simp only
    exact h o s s' hr v s' hp
theorem Triple.cmp_bind {P : c → Prop} {f : Ordering → Eff (c × σ) β} {Q : β → c → Prop} {X : c → Prop} {a b : κ}
    (hX : ∀ v s e, P v → (cmpE a b s).1 = .error e → X v)
    (h : ∀ o s s', cmpE a b s = (.ok o, s') → Triple (Raises cmpE) P (f o) Q X) :
    Triple (Raises cmpE) P (call (cmpE a b) >>= f) Q X :=
  Triple.cmp_bind' (fun v s e hp he => ⟨⟨a, b, s, he⟩, hX v s e hp he⟩) h
theorem Triple.get_eq {E : Panic → Prop} {X : c → Prop} {h : c} {f : c → Eff (c × σ) β} {Q : β → c → Prop}
    (hf : Triple E (fun w => w = h) (f h) Q X) : Triple E (fun w => w = h) (get >>= f) Q X :=
  Triple.get_bind fun v hv => by subst hv; exact hf

/-! ### Searching writes nothing -/

theorem searchIdx_keeps {E : Panic → Prop} {key : κ} (hE : ∀ k s e, (cmpE key k s).1 = .error e → E e) (h : BStore κ ν)
    (ks : List (Option κ)) : Triple E (fun w => w = h) (searchIdx cmpE key ks) (fun _ w => w = h) (fun w => w = h) := by
  induction ks with
  | nil => exact Triple.pure fun v hv => hv
  | cons k ks ih =>
    cases k with
    | none => exact Triple.pure fun v hv => hv
    | some k =>
      refine Triple.cmp_bind' (fun v _ _ hv he => ⟨hE _ _ _ he, hv⟩) fun o _ _ _ => ?_
      by_cases ho : o = .gt
      · rw [if_pos ho]
        exact Triple.bind ih fun i => Triple.pure fun v hv => hv
      · rw [if_neg ho]
        exact Triple.pure fun v hv => hv

/-- Any panic of a search leaves the heap. -/
theorem search_keeps (key : κ) (h : BStore κ ν) (d : Nat) : ∀ a,
    Triple (fun _ => True) (fun w => w = h) (search cmpE key d a) (fun _ w => w = h) (fun w => w = h) := by
  induction d with
  | zero => intro a v s hv; exact ⟨trivial, hv⟩
  | succ d ih =>
    intro a
    refine Triple.get_eq ?_
    cases hl : load h (some a) with
    | error e => intro v s hv; exact ⟨trivial, hv⟩
    | ok self =>
      refine Triple.lift_bind rfl ?_
      refine Triple.bind (searchIdx_keeps (fun _ _ _ _ => trivial) h self.keys) fun i => ?_
      refine Triple.bind (R := fun _ w => w = h) ?_ fun b => ?_
      · rcases self.keys[i]? with _ | _ | k
        · exact Triple.pure fun v hv => hv
        · exact Triple.pure fun v hv => hv
        · exact Triple.call_bind (fun _ _ _ => trivial) (fun v hv => hv) fun _ => Triple.pure fun v hv => hv
      · cases b with
        | true => exact Triple.pure fun v hv => hv
        | false =>
          simp only [Bool.false_eq_true, if_false]
          by_cases hlf : self.leaf = true
          · rw [if_pos hlf]; exact Triple.pure fun v hv => hv
          · rw [if_neg hlf]
            cases hc : getAt self.childs (i : Int) with
            | error e => intro v s hv; exact ⟨trivial, hv⟩
            | ok child =>
              refine Triple.lift_bind rfl ?_
              cases child with
              | none => exact Triple.pure fun v hv => hv
              | some c => exact ih c

/-- In a leaf only the comparisons panic. -/
theorem search_leaf {E : Panic → Prop} {key : κ} (hE : ∀ k s e, (cmpE key k s).1 = .error e → E e) {h : BStore κ ν}
    {a d : Nat} {node : BNode κ ν} (hn : h[a]? = some node) (hleaf : node.leaf = true) :
    Triple E (fun w => w = h) (search cmpE key (d + 1) a) (fun _ w => w = h) (fun w => w = h) := by
  refine Triple.get_eq (Triple.lift_bind (load_of hn) ?_)
  refine Triple.bind (searchIdx_keeps hE h node.keys) fun i => ?_
  refine Triple.bind (R := fun _ w => w = h) ?_ fun b => ?_
  · rcases node.keys[i]? with _ | _ | k
    · exact Triple.pure fun v hv => hv
    · exact Triple.pure fun v hv => hv
    · exact Triple.cmp_bind' (fun v _ _ hv he => ⟨hE _ _ _ he, hv⟩) fun _ _ _ _ => Triple.pure fun v hv => hv
  · cases b with
    | true => exact Triple.pure fun v hv => hv
    | false =>
      simp only [Bool.false_eq_true, if_false, hleaf, if_true]
      exact Triple.pure fun v hv => hv

/-! ### Shifting the entries of a leaf -/

/-- The leaf at `a` while entries are being moved: the entries `P` are in their places, those of `S` one further. -/
def shifted (node : BNode κ ν) (P S : List (κ × ν)) (x : Option κ) (y : Option ν) (t : List (Option κ))
    (u : List (Option ν)) : BNode κ ν :=
  { node with keys := kS P ++ x :: (kS S ++ t), values := vS P ++ y :: (vS S ++ u) }

/-- What a panic leaves: nothing moved, or one entry in two places. -/
def Torn (cmpE : κ → κ → Eff σ Ordering) (key : κ) (h : BStore κ ν) (a : Nat) (node : BNode κ ν) (l : List (κ × ν))
    (t : List (Option κ)) (u : List (Option ν)) (w : BStore κ ν) : Prop :=
  (∃ k s e, (cmpE k key s).1 = .error e) ∧ (w = h ∨ ∃ P e S, l = P ++ e :: S ∧
    w = h.set a { node with keys := kS (P ++ e :: e :: S) ++ t, values := vS (P ++ e :: e :: S) ++ u })

theorem leafLoop_torn (key : κ) {h : BStore κ ν} {a : Nat} {node : BNode κ ν} (hla : a < h.length)
    {t : List (Option κ)} {u : List (Option ν)} (P : List (κ × ν)) :
    ∀ (S : List (κ × ν)) (x : Option κ) (y : Option ν),
      (S = [] ∧ h.set a (shifted node P S x y t u) = h) ∨ (∃ e S', S = e :: S' ∧ x = some e.1 ∧ y = some e.2) →
      Triple (Raises cmpE) (fun w => w = h.set a (shifted node P S x y t u)) (leafLoop cmpE key a P.length)
        (fun i w => ∃ P' S' x' y', P ++ S = P' ++ S' ∧ i = P'.length ∧ w = h.set a (shifted node P' S' x' y' t u))
        (Torn cmpE key h a node (P ++ S) t u) := by
  induction P using snoc_induction with
  | nil => intro S x y _; exact Triple.pure fun v hv => ⟨[], S, x, y, rfl, rfl, hv⟩
  | snoc P p ih =>
    intro S x y hS
    rw [List.length_append, List.length_singleton]
    refine Triple.get_eq (Triple.lift_bind (load_of (List.getElem?_set_self hla)) ?_)
    have hk : (shifted node (P ++ [p]) S x y t u).keys = kS P ++ some p.1 :: (x :: (kS S ++ t)) := by simp [shifted]
    have hv : (shifted node (P ++ [p]) S x y t u).values = vS P ++ some p.2 :: (y :: (vS S ++ u)) := by simp [shifted]
    have i1 := index_mid (kS P) (some p.1) (x :: (kS S ++ t))
    have i2 := index_mid (vS P) (some p.2) (y :: (vS S ++ u))
    have s1 := setIndex_mid (kS (P ++ [p])) x (some p.1) (kS S ++ t)
    have s2 := setIndex_mid (vS (P ++ [p])) y (some p.2) (vS S ++ u)
    rw [kS_length, List.length_append, List.length_singleton] at s1
    rw [vS_length, List.length_append, List.length_singleton] at s2
    rw [kS_length] at i1
    rw [vS_length] at i2
    rw [hk, hv]
    refine Triple.lift_bind i1 ?_
    refine Triple.cmp_bind ?_ fun o _ _ _ => ?_
    · intro v s e hp he
      refine ⟨⟨p.1, s, e, he⟩, ?_⟩
      rcases hS with ⟨_, hS⟩ | ⟨e, S', rfl, rfl, rfl⟩
      · exact .inl (by rw [hp, hS])
      · refine .inr ⟨P ++ [p], e, S', by simp, ?_⟩
        rw [hp]
        simp [shifted]
    · by_cases ho : o = .gt
      · rw [if_pos ho]
        have e1 : kS P ++ some p.1 :: (x :: (kS S ++ t)) = kS (P ++ [p]) ++ x :: (kS S ++ t) := by simp
        have e2 : vS P ++ some p.2 :: (y :: (vS S ++ u)) = vS (P ++ [p]) ++ y :: (vS S ++ u) := by simp
        refine Triple.lift_bind (by rw [e1]; exact s1) (Triple.put_bind (Triple.lift_bind i2 (Triple.lift_bind
          (by rw [e2]; exact s2) (Triple.put_bind ?_))))
        have := ih (p :: S) (some p.1) (some p.2) (.inr ⟨p, S, rfl, rfl, rfl⟩)
        rw [List.append_cons P p S] at this
        refine this.weaken fun v hv => ?_
        rw [hv, List.set_set]
        simp [shifted]
      · rw [if_neg ho]
        exact Triple.pure fun v hv => ⟨P ++ [p], S, x, y, rfl, by simp, hv⟩

/-- Insertion into a leaf that has the entries `l`, counts them, and has a slot left. -/
theorem insertLeaf_torn (key : κ) (value : ν) {h : BStore κ ν} {a : Nat} {node : BNode κ ν} (hn : h[a]? = some node)
    {l : List (κ × ν)} {x : Option κ} {y : Option ν} {t : List (Option κ)} {u : List (Option ν)}
    (hk : node.keys = kS l ++ x :: t) (hv : node.values = vS l ++ y :: u) (hlen : node.n = (l.length : Nat)) :
    Triple (Raises cmpE) (fun w => w = h) (insertLeaf cmpE a key value) (fun _ _ => True)
      (Torn cmpE key h a node l t u) := by
  have hla := (List.getElem?_eq_some_iff.1 hn).1
  have hsame : h.set a (shifted node l [] x y t u) = h := by
    have : shifted node l [] x y t u = node := by
      unfold shifted
      simp only [kS_nil, vS_nil, List.nil_append]
      rw [← hk, ← hv]
    rw [this]; exact set_same hn
  refine Triple.get_eq (Triple.lift_bind (load_of hn) ?_)
  have hl := leafLoop_torn (cmpE := cmpE) key (node := node) hla (t := t) (u := u) l [] x y
    (.inl ⟨rfl, hsame⟩)
  rw [hsame, List.append_nil] at hl
  rw [hlen, Int.toNat_natCast]
  refine Triple.bind hl fun i => ?_
  rw [if_neg (by omega)]
  refine Triple.get_bind fun w ⟨P, S, x', y', e, hi, hw⟩ => ?_
  subst hw hi
  have s1 := setIndex_mid (kS P) x' (some key) (kS S ++ t)
  have s2 := setIndex_mid (vS P) y' (some value) (vS S ++ u)
  rw [kS_length] at s1
  rw [vS_length] at s2
  exact Triple.lift_bind (load_of (List.getElem?_set_self hla)) (Triple.lift_bind s1 (Triple.lift_bind s2
    (Triple.put trivial)))

theorem insertNonFull_leaf_eq {h : BStore κ ν} {a d : Nat} {node : BNode κ ν} (hn : h[a]? = some node)
    (hleaf : node.leaf = true) (key : κ) (value : ν) {E : Panic → Prop} {Q : Unit → BStore κ ν → Prop}
    {X : BStore κ ν → Prop} (hx : Triple E (fun w => w = h) (insertLeaf cmpE a key value) Q X) :
    Triple E (fun w => w = h) (insertNonFull cmpE key value (d + 1) a) Q X := by
  refine Triple.get_eq (Triple.lift_bind (load_of hn) ?_)
  rw [if_pos hleaf]
  exact hx

end Unwind
open Unwind

/-! ### What the map shows afterwards -/

theorem locate_weak (hc : LawfulCmp cmp) {l : List (κ × ν)} (hl : l.Pairwise fun a b => cmp a.1 b.1 ≠ .gt) (key : κ) :
    (∃ A b B, l = A ++ b :: B ∧ (∀ e ∈ A, cmp key e.1 = .gt) ∧ cmp key b.1 = .eq) ∨
    (∃ A B, l = A ++ B ∧ (∀ e ∈ A, cmp key e.1 = .gt) ∧ (∀ e ∈ B, cmp key e.1 = .lt)) := by
  induction l with
  | nil => exact .inr ⟨[], [], rfl, by simp, by simp⟩
  | cons a l ih =>
    obtain ⟨h1, h2⟩ := List.pairwise_cons.1 hl
    cases h : cmp key a.1 with
    | lt =>
      refine .inr ⟨[], a :: l, rfl, by simp, ?_⟩
      intro e he
      rcases List.mem_cons.1 he with rfl | he
      · exact h
      · have hle := h1 e he
        cases hke : cmp key e.1 with
        | lt => rfl
        | eq =>
          have := hc.trans a.1 e.1 key hle (by rw [hc.swap key e.1, hke]; decide)
          rw [hc.swap key a.1, h] at this
          exact absurd rfl this
        | gt => exact absurd hke (hc.trans _ _ _ (by rw [h]; decide) hle)
    | eq => exact .inl ⟨[], a, l, rfl, by simp, h⟩
    | gt =>
      rcases ih h2 with ⟨A, b, B, e, h3, h4⟩ | ⟨A, B, e, h3, h4⟩
      · refine .inl ⟨a :: A, b, B, by rw [e]; rfl, ?_, h4⟩
        intro x hx
        rcases List.mem_cons.1 hx with rfl | hx
        · exact h
        · exact h3 x hx
      · refine .inr ⟨a :: A, B, by rw [e]; rfl, ?_, h4⟩
        intro x hx
        rcases List.mem_cons.1 hx with rfl | hx
        · exact h
        · exact h3 x hx

theorem lookup_first {A B : List (κ × ν)} {b : κ × ν} {key : κ} (hA : ∀ e ∈ A, cmp key e.1 = .gt)
    (hb : cmp key b.1 = .eq) : OMap.lookup cmp (A ++ b :: B) key = some b.2 := by
  unfold OMap.lookup
  have : A.find? (fun e => cmp key e.1 == .eq) = none := by
    rw [List.find?_eq_none]
    intro e he
    rw [hA e he]; decide
  rw [List.find?_append, this]
  simp [hb]

theorem lookup_doubled {l L : List (κ × ν)} (h : Doubled l L) (key : κ) : OMap.lookup cmp L key = OMap.lookup cmp l key := by
  obtain ⟨P, e, S, rfl, rfl⟩ := h
  unfold OMap.lookup
  simp only [List.find?_append, List.find?_cons]
  cases cmp key e.1 == Ordering.eq <;> rfl

theorem weak_of_asc {l : List (κ × ν)} (h : Ascending cmp l) : l.Pairwise fun a b => cmp a.1 b.1 ≠ .gt :=
  h.imp fun h => by rw [h]; decide

theorem weak_doubled (hc : LawfulCmp cmp) {l L : List (κ × ν)} (h : Ascending cmp l) (hd : Doubled l L) :
    L.Pairwise fun a b => cmp a.1 b.1 ≠ .gt := by
  obtain ⟨P, e, S, rfl, rfl⟩ := hd
  have h := weak_of_asc h
  rw [List.pairwise_append, List.pairwise_cons] at h
  rw [List.pairwise_append, List.pairwise_cons, List.pairwise_cons]
  obtain ⟨h1, ⟨h2, h3⟩, h4⟩ := h
  refine ⟨h1, ⟨?_, h2, h3⟩, ?_⟩
  · intro x hx
    rcases List.mem_cons.1 hx with rfl | hx
    · rw [hc.refl]; decide
    · exact h2 x hx
  · intro x hx y hy
    rcases List.mem_cons.1 hy with rfl | hy
    · exact h4 x hx y (by simp)
    · exact h4 x hx y hy

/-- A map of one leaf with the entries `L` in its slots, whatever it counts. -/
structure ShowsLeaf (h : BStore κ ν) (m : BMap) (L : List (κ × ν)) (n : Int) : Prop where
  le : L.length ≤ 11
  at_ : ∃ a cs, m.root = some a ∧ h[a]? = some ⟨true, 0, kS L ++ List.replicate (11 - L.length) none,
    vS L ++ List.replicate (11 - L.length) none, n, cs⟩

theorem ShowsLeaf.get (hc : LawfulCmp cmp) {h : BStore κ ν} {m : BMap} {L : List (κ × ν)} {n : Int}
    (hs : ShowsLeaf h m L n) (hL : L.Pairwise fun a b => cmp a.1 b.1 ≠ .gt) (k : κ) :
    BMap.get cmp h m k = .ok ⟨OMap.lookup cmp L k⟩ := by
  obtain ⟨_, a, cs, hr, hn⟩ := hs
  rcases locate_weak hc hL k with ⟨A, b, B, rfl, hA, hb⟩ | ⟨A, B, rfl, hA, hB⟩
  · rw [lookup_first hA hb]
    exact (get_of_slots hr hn rfl rfl hA hb).1
  · rw [lookup_fresh hA hB]
    obtain ⟨root, len⟩ := m
    simp only at hr
    subst hr
    simp only [BMap.get, search_fresh_leaf hn rfl rfl hA hB, Go.bind_ok]
    rfl

theorem ShowsLeaf.toVec {h : BStore κ ν} {m : BMap} {L : List (κ × ν)} {n : Int} (hs : ShowsLeaf h m L n) (g : Growth) :
    ∃ it, BMap.intoIter g h m = .ok it ∧
      ∀ n, it.nexts n = .ok ((List.range n).map fun i => (L[i]?).map fun e => ⟨e.1, e.2⟩) := by
  obtain ⟨hle, a, cs, hr, hn⟩ := hs
  obtain ⟨root, len⟩ := m
  simp only at hr
  subst hr
  have hkl : (kS L ++ List.replicate (11 - L.length) (none : Option κ)).length = 11 := by simp; omega
  obtain ⟨w, h1, h2⟩ := walk_leaf g (childs := cs) (sub := BTree.toVec g h h.length) 11
    (fun j hj => emitPair_slots L (11 - L.length) j (by omega))
  have ht : BTree.toVec g h (h.length + 1) a = .ok w := by
    simp only [BTree.toVec, load_of hn, Go.bind_ok, toVecLoop_walk, hkl]; exact h1
  refine ⟨⟨w, 0⟩, by simp [BMap.intoIter, ht], fun n => ?_⟩
  refine nexts_map (f := toPair) ?_ n
  rw [h2, List.take_of_length_le (by simpa using hle)]

theorem ShowsLeaf.keys {h : BStore κ ν} {m : BMap} {L : List (κ × ν)} {n : Nat} (hs : ShowsLeaf h m L n) (hn' : n ≤ 11)
    (g : Growth) : ∃ it, BMap.keys g h m = .ok it ∧
      ∀ j, it.nexts j = .ok ((List.range j).map fun i => ((L.take n)[i]?).map (·.1)) := by
  obtain ⟨hle, a, cs, hr, hn⟩ := hs
  obtain ⟨root, len⟩ := m
  simp only at hr
  subst hr
  have hkl : (kS L ++ List.replicate (11 - L.length) (none : Option κ)).length = 11 := by simp; omega
  obtain ⟨w, h1, h2⟩ := walk_leaf g (childs := cs) (sub := BTree.toKeyVec g h h.length) n
    (fun j hj => index_kS L (11 - L.length) j (by omega))
  have ht : BTree.toKeyVec g h (h.length + 1) a = .ok w := by
    simp only [BTree.toKeyVec, load_of hn, Go.bind_ok, toKeyVecLoop_walk, hkl]
    rw [if_neg (by omega), Int.toNat_natCast, Nat.min_eq_right hn']; exact h1
  refine ⟨⟨w, 0⟩, by simp [BMap.keys, ht], fun n => ?_⟩
  refine nexts_map (f := fun e : κ × ν => e.1) ?_ n
  rw [h2, List.map_take]

/-- What is left of a map with the entries `l` (at most eleven) when Insert of `key` panics. -/
def Left (cmpE : κ → κ → Eff σ Ordering) (h : BStore κ ν) (m : BMap) (l : List (κ × ν)) (key : κ) (w : BStore κ ν) :
    Prop :=
  w = h ∨ ((∃ k s e, (cmpE k key s).1 = .error e) ∧ ∃ L, (∃ n, ShowsLeaf w m L n) ∧
    (L = l ∨ (if l.length = 11 then Doubled (l.take 10) L else Doubled l L)))

theorem bInsert_left (hc : LawfulCmp cmp) {h : BStore κ ν} {m : BMap} {l : List (κ × ν)} {fp : List Nat}
    (hg : Good cmp h m l fp) (hlen : l.length ≤ 11) (ha : Answers cmpE cmp) (key : κ) (value : ν) :
    Triple (Raises cmpE) (fun w => w = h) (bInsert cmpE m key value) (fun _ _ => True) (Left cmpE h m l key) := by
  obtain ⟨root, len⟩ := m
  obtain ⟨asc, hml, tree⟩ := hg
  simp only at tree
  unfold bInsert
  cases root with
  | none =>
    simp only
    exact Triple.get_eq (Triple.lift_bind rfl (Triple.lift_bind rfl (Triple.put_bind (Triple.pure fun _ _ => trivial))))
  | some a =>
    cases tree with
    | node h1 h2 => 
      have := List.length_pos_iff.2 h2
      simp at hlen; omega
    | leaf hne hleaf =>
      have htr := Tree.leaf (h := h) hne hleaf
      obtain ⟨_, cs, hn⟩ := hleaf
      have hla := (List.getElem?_eq_some_iff.1 hn).1
      simp only
      refine Triple.get_eq ?_
      have hsrch := ((search_leaf (cmpE := cmpE) (fun k s e he => ⟨key, k, s, he⟩) (d := h.length) hn rfl).and (search_ret ha key h (h.length + 1) a)).post
        (E' := Raises cmpE) (X' := Left cmpE h ⟨some a, len⟩ l key)
        (Q' := fun r w => w = h ∧ BTree.search cmp h key (h.length + 1) a = .ok r)
        (fun e he => he.1) (fun b v hv => hv.2) (fun v hv => .inl hv.1)
      refine Triple.bind hsrch fun r => Triple.given fun hr => ?_
      rcases htr.search hc asc key with ⟨A, b, B, p, node, i, e, hA, hb, hB, hs, hp, hn', hv, _⟩ |
        ⟨A, B, e, hA, hB, hs⟩
      · -- replacing a value
        rw [hs] at hr
        cases hr
        simp only
        have hi : i < node.values.length := (List.getElem?_eq_some_iff.1 hv).1
        exact Triple.lift_bind (load_of hn') (Triple.lift_bind (by unfold index; rw [hv])
          (Triple.lift_bind (setIndex_lt hi) (Triple.put_bind (Triple.lift_bind rfl (Triple.pure fun _ _ => trivial)))))
      · rw [hs] at hr
        cases hr
        simp only
        refine Triple.lift_bind (load_of hn) ?_
        by_cases hfull : l.length = 11
        · -- the root is full
          rw [if_pos (by rw [hfull]; rfl)]
          have hlne : l ≠ [] := hne
          obtain ⟨Y, q, rfl⟩ : ∃ Y q, l = Y ++ [q] := ⟨_, _, (List.dropLast_concat_getLast hlne).symm⟩
          have hY : Y.length = 10 := by simpa using hfull
          have hcs : setIndex (blank false capacity 0 : BNode κ ν).childs 0 (some a) =
            .ok (some a :: List.replicate 11 none) := rfl
          refine Triple.lift_bind hcs ?_
          let nr : BNode κ ν := ⟨false, 11, List.replicate 11 none, List.replicate 11 none, 0,
            some a :: List.replicate 11 none⟩
          have h0a : (h ++ [nr])[h.length]? = some nr := by simp
          have h0y : (h ++ [nr])[a]? = some ⟨true, 0, kS (Y ++ [q]), vS (Y ++ [q]), 11, cs⟩ := by
            rw [List.getElem?_append_left hla, hn, hfull]; simp
          obtain ⟨h1, hsp, hl1, h1a, h1y, h1z, h1o⟩ := splitChild_facts h0a h0y (by omega) rfl rfl rfl
            (i := 0) (PK := []) (AK := [none]) (x := none) (BK := List.replicate 9 none) (PV := []) (AV := [none])
            (v := none) (BV := List.replicate 9 none) (PC := [some a]) (AC := []) (c := none) (BC := List.replicate 10 none)
            (ky := some q.1) (vy := some q.2) rfl rfl rfl rfl rfl rfl rfl rfl rfl
            (by simp only [kS_append]; rw [← hY, ← kS_length Y]; simp)
            (by simp only [vS_append]; rw [← hY, ← vS_length Y]; simp)
          refine Triple.lift_bind hsp (Triple.put_bind (Triple.lift_bind (load_of h1a) (Triple.lift_bind
            (b := some q.1) rfl (Triple.lift_bind (b := q.1) rfl ?_))))
          have hshow : ShowsLeaf h1 ⟨some a, len⟩ (Y ++ [q]) 10 := by
            refine ⟨by omega, a, cs, rfl, ?_⟩
            rw [h1y, hfull]; simp
          refine Triple.cmp_bind ?_ fun o _ _ ho => ?_
          · intro v s e hv he
            subst hv
            exact .inr ⟨⟨q.1, s, e, he⟩, Y ++ [q], ⟨_, hshow⟩, .inl rfl⟩
          · by_cases hlt : o = .lt
            · -- the new, empty node
              rw [if_pos hlt]
              refine Triple.lift_bind (b := some (h ++ [nr]).length) rfl (Triple.lift_bind (b := (h ++ [nr]).length) rfl ?_)
              refine Triple.bind (R := fun _ _ => True) ?_ fun _ => Triple.pure fun _ _ => trivial
              refine insertNonFull_leaf_eq h1z rfl key value ?_
              refine Triple.get_eq (Triple.lift_bind (load_of h1z) ?_)
              refine Triple.bind (R := fun i w => w = h1 ∧ i = 10) ?_ fun i => Triple.given fun hi => ?_
              · exact Triple.get_eq (Triple.lift_bind (load_of h1z) (Triple.lift_bind (b := none) rfl
                  (Triple.pure fun v hv => ⟨hv, rfl⟩)))
              · subst hi
                exact Triple.get_eq (Triple.lift_bind (load_of h1z) (Triple.lift_bind rfl (Triple.lift_bind rfl
                  (Triple.put trivial))))
            · rw [if_neg hlt]
              refine Triple.lift_bind (b := some a) rfl (Triple.lift_bind (b := a) rfl ?_)
              refine Triple.bind (R := fun _ _ => True) ?_ fun _ => Triple.pure fun _ _ => trivial
              refine insertNonFull_leaf_eq h1y rfl key value ?_
              refine (insertLeaf_torn (cmpE := cmpE) key value h1y (l := Y) (x := some q.1) (y := some q.2) (t := [])
                (u := []) (by simp) (by simp) (by simp [hY])).post (fun _ he => he) (fun _ _ hq => hq) ?_
              rintro w ⟨hp, hw | ⟨P, e', S, e1, hw⟩⟩
              · subst hw; exact .inr ⟨hp, Y ++ [q], ⟨_, hshow⟩, .inl rfl⟩
              · refine .inr ⟨hp, P ++ e' :: e' :: S, ⟨10, ?_⟩, .inr ?_⟩
                · have hl11 : (P ++ e' :: e' :: S).length = 11 := by rw [e1] at hY; simp at hY ⊢; omega
                  refine ⟨by omega, a, cs, rfl, ?_⟩
                  rw [hw, List.getElem?_set_self (List.getElem?_eq_some_iff.1 h1y).1, hl11]
                  simp
                · rw [if_pos hfull]
                  refine ⟨P, e', S, ?_, rfl⟩
                  rw [← hY, List.take_left]; exact e1
        · -- there is room
          rw [if_neg (by unfold capacity; simp only; omega)]
          refine Triple.bind (R := fun _ _ => True) ?_ fun _ => Triple.pure fun _ _ => trivial
          have hi : ∃ c, 11 - l.length = c + 1 := ⟨10 - l.length, by omega⟩
          obtain ⟨c, hcc⟩ := hi
          have hn2 := hn
          rw [hcc, List.replicate_succ, List.replicate_succ] at hn2
          refine insertNonFull_leaf_eq hn rfl key value ?_
          refine (insertLeaf_torn (cmpE := cmpE) key value hn2 (l := l) (x := none) (y := none)
            (t := List.replicate c none) (u := List.replicate c none) rfl rfl rfl).post
              (fun _ he => he) (fun _ _ hq => hq) ?_
          rintro w ⟨hp, hw | ⟨P, e', S, e1, hw⟩⟩
          · exact .inl hw
          · refine .inr ⟨hp, P ++ e' :: e' :: S, ⟨l.length, ?_⟩, .inr ?_⟩
            · have hl1 : (P ++ e' :: e' :: S).length = l.length + 1 := by rw [e1]; simp; omega
              refine ⟨by omega, a, cs, rfl, ?_⟩
              have : 11 - (l.length + 1) = c := by omega
              rw [hw, List.getElem?_set_self hla, hl1, this]
            · rw [if_neg hfull]
              exact ⟨P, e', S, e1, rfl⟩

/-! ### Remove -/

namespace Unwind
theorem findKeyLoop_keeps (key : κ) (h : BStore κ ν) (n : Int) (ks : List (Option κ)) : ∀ i : Int, n ≤ i + ks.length →
    Triple (Raises cmpE) (fun w => w = h) (findKeyLoop cmpE key n ks i) (fun j w => w = h ∧ i ≤ j) (fun w => w = h) := by
  induction ks with
  | nil =>
    intro i hi
    simp only [List.length_nil] at hi
    unfold findKeyLoop
    rw [if_neg (by omega)]
    exact Triple.pure fun v hv => ⟨hv, Int.le_refl _⟩
  | cons k ks ih =>
    intro i hi
    simp only [List.length_cons] at hi
    cases k with
    | none => exact Triple.pure fun v hv => ⟨hv, Int.le_refl _⟩
    | some k =>
      unfold findKeyLoop
      by_cases hlt : i < n
      · rw [if_pos hlt]
        refine Triple.cmp_bind (fun v _ _ hv _ => hv) fun o _ _ _ => ?_
        by_cases ho : o = .lt
        · rw [if_pos ho]
          exact (ih (i + 1) (by omega)).post (fun _ he => he) (fun j v hv => ⟨hv.1, by omega⟩) (fun _ hv => hv)
        · rw [if_neg ho]
          exact Triple.pure fun v hv => ⟨hv, Int.le_refl _⟩
      · rw [if_neg hlt]
        exact Triple.pure fun v hv => ⟨hv, Int.le_refl _⟩

/-- Remove from a leaf writes after its last comparison. -/
theorem removeNode_keeps (ha : Answers cmpE cmp) {h w0 : BStore κ ν} {a d : Nat} {node : BNode κ ν} {key : κ}
    (hn : h[a]? = some node) (hleaf : node.leaf = true) (hk : node.n ≤ node.keys.length)
    (hok : BTree.removeNode cmp (d + 1) h a key = .ok w0) :
    Triple (Raises cmpE) (fun w => w = h) (removeNode cmpE (d + 1) a key) (fun _ w => w = w0) (fun w => w = h) := by
  refine Triple.get_eq (Triple.lift_bind (load_of hn) ?_)
  refine Triple.bind (R := fun i w => w = h ∧ 0 ≤ i ∧ BTree.findKeyLoop cmp key node.n node.keys 0 = .ok i)
    (((findKeyLoop_keeps (cmpE := cmpE) key h node.n node.keys 0 (by omega)).and
      (findKeyLoop_ret ha key node.n h node.keys 0)).post (fun _ he => he.1)
      (fun i v hv => ⟨hv.1.1, hv.1.2, hv.2.2⟩) (fun v hv => hv.1)) fun i => ?_
  refine Triple.given fun ⟨hi0, hi⟩ => ?_
  simp only [BTree.removeNode, load_of hn, Go.bind_ok, BTree.findKey, hi] at hok
  refine Triple.bind (R := fun b w => w = h ∧ (if i < node.n then do
      let k ← getAt node.keys i
      match k with
      | some k => (.ok (decide (cmp k key = Ordering.eq)) : Go Bool)
      | none => .ok false
    else .ok false) = .ok b) ?_ fun b => ?_
  · by_cases hlt : i < node.n
    · rw [if_pos hlt, if_pos hlt]
      have hg : ∃ k, getAt node.keys i = .ok k := by
        unfold getAt index
        rw [if_neg (by omega), List.getElem?_eq_getElem (by omega : i.toNat < node.keys.length)]
        exact ⟨_, rfl⟩
      obtain ⟨k, hg⟩ := hg
      rw [hg]
      refine Triple.lift_bind rfl ?_
      cases k with
      | none => exact Triple.pure fun v hv => ⟨hv, rfl⟩
      | some k =>
        refine Triple.cmp_bind (fun v _ _ hv _ => hv) fun o s s' ho => Triple.pure fun v hv => ⟨hv, ?_⟩
        have := ha _ _ _ _ _ ho
        simp only [Go.bind_ok, this]
    · rw [if_neg hlt, if_neg hlt]
      exact Triple.pure fun v hv => ⟨hv, rfl⟩
  · refine Triple.given fun hb => ?_
    erw [hb] at hok
    simp only [Go.bind_ok, hleaf, if_true] at hok
    simp only [hleaf, if_true]
    cases b with
    | true =>
      simp only [if_true] at hok ⊢
      exact Triple.lift_bind hok (Triple.put rfl)
    | false =>
      simp only [Bool.false_eq_true, if_false, Except.ok.injEq] at hok ⊢
      exact Triple.pure fun v hv => by rw [hv, hok]

theorem Triple.lift_ok {E : Panic → Prop} {P : c → Prop} {x : Go β} {f : β → Eff (c × σ) γ} {f' : β → Go δ} {r : δ}
    {Q : γ → c → Prop} {X : c → Prop} (hok : (x >>= f') = .ok r)
    (h : ∀ b, x = .ok b → f' b = .ok r → Triple E P (f b) Q X) : Triple E P (Eff.lift x >>= f) Q X := by
  cases x with
  | error e => cases hok
  | ok b => exact h b rfl hok
end Unwind

theorem remove_ok (hc : LawfulCmp cmp) {h : BStore κ ν} {m : BMap} {l : List (κ × ν)} {fp : List Nat}
    (hg : Good cmp h m l fp) (hlen : l.length ≤ 11) (key : κ) : ∃ r, BMap.remove cmp h m key = .ok r := by
  rcases locate hc hg.asc key with ⟨A, b, B, rfl, hA, hb, hB⟩ | ⟨A, B, rfl, hA, hB⟩
  · cases B with
    | nil =>
      by_cases hA0 : A = []
      · subst hA0
        obtain ⟨h', e1, _⟩ := Good.remove_only hc hg hb
        exact ⟨_, e1⟩
      · obtain ⟨h', m', a, cs, e1, _⟩ := hg.remove_last hc hA0 hlen hb
        exact ⟨_, e1⟩
    | cons c B =>
      obtain ⟨h', m', e1, _⟩ := Good.remove_inner hc hg hlen hA hb
      exact ⟨_, e1⟩
  · refine ⟨_, Good.remove_absent hc hg (mem_fresh hA hB) ?_⟩
    intro e he
    have := (List.getElem?_eq_some_iff.1 he).1
    omega

theorem bRemove_keeps (hc : LawfulCmp cmp) {h : BStore κ ν} {m : BMap} {l : List (κ × ν)} {fp : List Nat}
    (hg : Good cmp h m l fp) (hlen : l.length ≤ 11) (ha : Answers cmpE cmp) (key : κ) :
    Triple (Raises cmpE) (fun w => w = h) (bRemove cmpE m key) (fun _ _ => True) (fun w => w = h) := by
  obtain ⟨r, hok⟩ := remove_ok hc hg hlen key
  obtain ⟨root, len⟩ := m
  obtain ⟨asc, hml, tree⟩ := hg
  simp only at tree
  unfold bRemove
  cases root with
  | none => exact Triple.pure fun _ _ => trivial
  | some a =>
    cases tree with
    | node h1 h2 =>
      have := List.length_pos_iff.2 h2
      simp at hlen; omega
    | leaf hne hleaf =>
      obtain ⟨_, cs, hn⟩ := hleaf
      simp only
      refine Triple.get_eq ?_
      have hsrch := ((search_leaf (cmpE := cmpE) (fun k s e he => ⟨key, k, s, he⟩) (d := h.length) hn rfl).and
        (search_ret ha key h (h.length + 1) a)).post
        (E' := Raises cmpE) (X' := fun w => w = h)
        (Q' := fun r w => w = h ∧ BTree.search cmp h key (h.length + 1) a = .ok r)
        (fun e he => he.1) (fun b v hv => hv.2) (fun v hv => hv.1)
      refine Triple.bind hsrch fun p => Triple.given fun hp => ?_
      simp only [BMap.remove, hp, Go.bind_ok] at hok
      cases hrm : BTree.removeNode cmp (h.length + 1) h a key with
      | error e => rw [hrm] at hok; cases hok
      | ok w0 =>
        rw [hrm] at hok
        simp only [Go.bind_ok] at hok
        refine Triple.bind (removeNode_keeps ha hn rfl ?_ hrm) fun _ => Triple.get_eq ?_
        · simp only [List.length_append, kS_length, List.length_replicate]; omega
        refine Triple.lift_ok hok fun rn _ hok => Triple.lift_ok hok fun nr _ hok => ?_
        cases p with
        | none => exact Triple.pure fun _ _ => trivial
        | some p =>
          refine Triple.lift_ok hok fun _ _ hok => Triple.lift_ok hok fun _ _ hok => Triple.lift_ok hok fun _ _ _ => ?_
          exact Triple.pure fun _ _ => trivial

/-! ### C139 -/

/-- C139: whatever Cmp does besides, an Insert, Remove, Get or ContainsKey that returns has done what it does with the
pure comparison (C72, C74). -/
theorem C139_answered (ha : Answers cmpE cmp) (h h' : BStore κ ν) (s s' : σ) (m : BMap) (key : κ) (value : ν) :
    (∀ m' r, Unwind.bInsert cmpE m key value (h, s) = (.ok (m', r), (h', s')) →
      BMap.insert cmp h m key value = .ok (h', m', r)) ∧
    (∀ m' r, Unwind.bRemove cmpE m key (h, s) = (.ok (m', r), (h', s')) →
      BMap.remove cmp h m key = .ok (h', m', r)) ∧
    (∀ r, Unwind.bGet cmpE m key (h, s) = (.ok r, (h', s')) → h' = h ∧ BMap.get cmp h m key = .ok r) ∧
    (∀ r, Unwind.bContainsKey cmpE m key (h, s) = (.ok r, (h', s')) → h' = h ∧ BMap.containsKey cmp h m key = .ok r) := by
  refine ⟨fun m' r e => ?_, fun m' r e => ?_, fun r e => ?_, fun r e => ?_⟩
  · have := bInsert_ret ha h m key value h s rfl
    rw [e] at this; exact this
  · have := bRemove_ret ha h m key h s rfl
    rw [e] at this; exact this
  · have := bGet_ret ha h m key h s rfl
    rw [e] at this; exact this
  · have := bContainsKey_ret ha h m key h s rfl
    rw [e] at this; exact this

/-- C139: Get and ContainsKey leave every node alone, whatever Cmp answers and when it panics. -/
theorem C139_reads (h : BStore κ ν) (s : σ) (m : BMap) (key : κ) :
    (Unwind.bGet cmpE m key (h, s)).2.1 = h ∧ (Unwind.bContainsKey cmpE m key (h, s)).2.1 = h := by
  have key' : ∀ {β : Type} {x : Eff (BStore κ ν × σ) β},
      Triple (fun _ => True) (fun w => w = h) x (fun _ w => w = h) (fun w => w = h) → (x (h, s)).2.1 = h := by
    intro β x hx
    have := hx h s rfl
    rcases hr : x (h, s) with ⟨e | b, t⟩
    · rw [hr] at this; exact this.2
    · rw [hr] at this; exact this
  constructor
  · refine key' ?_
    unfold bGet
    cases m.root with
    | none => exact Triple.pure fun v hv => hv
    | some root =>
      refine Triple.get_eq (Triple.bind (search_keeps key h _ root) fun r => ?_)
      cases r with
      | none => exact Triple.pure fun v hv => hv
      | some p =>
        have lifts : ∀ {γ δ : Type} {x : Go γ} {f : γ → Eff (BStore κ ν × σ) δ},
            (∀ b, Triple (fun _ => True) (fun w => w = h) (f b) (fun _ w => w = h) (fun w => w = h)) →
            Triple (fun _ => True) (fun w => w = h) (Eff.lift x >>= f) (fun _ w => w = h) (fun w => w = h) := by
          intro γ δ x f hf
          cases x with
          | error e => intro v s hv; exact ⟨trivial, hv⟩
          | ok b => exact hf b
        exact lifts fun _ => lifts fun _ => lifts fun _ => Triple.pure fun v hv => hv
  · refine key' ?_
    unfold bContainsKey
    cases m.root with
    | none => exact Triple.pure fun v hv => hv
    | some root =>
      exact Triple.get_eq (Triple.bind (search_keeps key h _ root) fun r => Triple.pure fun v hv => hv)

/-- C139, in part: with at most eleven keys, an Insert that panics does so because Cmp did, and leaves the map variable
as it was; if no comparison of a stored key with the new one panics, it leaves every node as it was.  Otherwise
IntoIter gives the old entries, or (with at most ten keys) the old entries with one of them doubled, or (with eleven) the
ten smallest with one of them doubled, and Get finds what IntoIter gives; so with at most ten keys Get finds what it found
before.  The full property, that the map is as it was, fails: `C139_insert_fails`, `C139_full_fails`.  Missing: maps with
more than eleven keys. -/
theorem C139_insert_partial (hc : LawfulCmp cmp) (g : Growth) {h h' : BStore κ ν} {m : BMap} {l : List (κ × ν)}
    (hr : BMap.Reached cmp h m l) (hlen : l.length ≤ 11) (ha : Answers cmpE cmp) (key : κ) (value : ν) (s s' : σ)
    (e : Panic) (hrun : Unwind.bInsert cmpE m key value (h, s) = (.error e, (h', s'))) :
    Raises cmpE e ∧ ((∀ k s e, (cmpE k key s).1 ≠ .error e) → h' = h) ∧
    (l.length ≤ 10 → ∀ k, BMap.get cmp h' m k = .ok ⟨OMap.lookup cmp l k⟩) ∧
    ∃ L, (L = l ∨ (if l.length = 11 then Doubled (l.take 10) L else Doubled l L)) ∧
      (∀ k, BMap.get cmp h' m k = .ok ⟨OMap.lookup cmp L k⟩) ∧
      ∃ it, BMap.intoIter g h' m = .ok it ∧
        ∀ n, it.nexts n = .ok ((List.range n).map fun i => (L[i]?).map fun e => ⟨e.1, e.2⟩) := by
  obtain ⟨fp, hg⟩ := hr.good hc
  have ht := bInsert_left hc hg hlen ha key value h s rfl
  rw [hrun] at ht
  obtain ⟨h1, h2⟩ := ht
  simp only at h2
  have main : (∃ L, (L = l ∨ (if l.length = 11 then Doubled (l.take 10) L else Doubled l L)) ∧
      (∀ k, BMap.get cmp h' m k = .ok ⟨OMap.lookup cmp L k⟩) ∧
      ∃ it, BMap.intoIter g h' m = .ok it ∧
        ∀ n, it.nexts n = .ok ((List.range n).map fun i => (L[i]?).map fun e => ⟨e.1, e.2⟩)) := by
    rcases h2 with rfl | ⟨_, L, ⟨n, hs⟩, hL⟩
    · obtain ⟨_, _, h3, h4, _⟩ := C75_btree_iter_partial hc g hr
      exact ⟨l, .inl rfl, h3, h4⟩
    · refine ⟨L, hL, hs.get hc ?_, hs.toVec g⟩
      rcases hL with rfl | hL
      · exact weak_of_asc hg.asc
      · by_cases h11 : l.length = 11
        · rw [if_pos h11] at hL
          exact weak_doubled hc (hg.asc.sublist (List.take_sublist _ _)) hL
        · rw [if_neg h11] at hL
          exact weak_doubled hc hg.asc hL
  refine ⟨h1, ?_, ?_, main⟩
  · intro hno
    rcases h2 with h2 | ⟨⟨k, s, e, hp⟩, _⟩
    · exact h2
    · exact absurd hp (hno k s e)
  · intro h10 k
    obtain ⟨L, hL, hget, _⟩ := main
    rw [hget k]
    rcases hL with rfl | hL
    · rfl
    · rw [if_neg (by omega)] at hL
      rw [lookup_doubled hL]

/-- C139, in part: with at most eleven keys, a Remove that panics does so because Cmp did, and leaves the map variable and
every node as they were.  Missing: maps with more than eleven keys, where nodes are merged and refilled on the way down
to the key. -/
theorem C139_remove_partial (hc : LawfulCmp cmp) {h h' : BStore κ ν} {m : BMap} {l : List (κ × ν)}
    (hr : BMap.Reached cmp h m l) (hlen : l.length ≤ 11) (ha : Answers cmpE cmp) (key : κ) (s s' : σ) (e : Panic)
    (hrun : Unwind.bRemove cmpE m key (h, s) = (.error e, (h', s'))) : Raises cmpE e ∧ h' = h := by
  obtain ⟨fp, hg⟩ := hr.good hc
  have ht := bRemove_keeps hc hg hlen ha key h s rfl
  rw [hrun] at ht
  exact ht

/-! ### Where it fails -/

/-- The comparison `cmp` that panics for the one pair `p`, `q` (and whatever equals them). -/
def panicPair (cmp : κ → κ → Ordering) (p q : κ) (a b : κ) : Eff σ Ordering := fun s =>
  (if cmp a p = .eq ∧ cmp b q = .eq then .error .explicit else .ok (cmp a b), s)

theorem panicPair_answers (cmp : κ → κ → Ordering) (p q : κ) : Answers (panicPair (σ := σ) cmp p q) cmp := by
  intro a b s o s' h
  unfold panicPair at h
  by_cases hp : cmp a p = .eq ∧ cmp b q = .eq
  · rw [if_pos hp] at h; cases h
  · rw [if_neg hp] at h; cases h; rfl

namespace Unwind
/-- The entries after `x` are moved, then the comparison with `x` panics. -/
theorem leafLoop_panics {key : κ} {h : BStore κ ν} {a : Nat} {node : BNode κ ν} (hla : a < h.length)
    {t : List (Option κ)} {u : List (Option ν)} {P : List (κ × ν)} {x : κ × ν}
    (hx : ∀ s, (cmpE x.1 key s).1 = .error .explicit) (S1 : List (κ × ν)) :
    (∀ e ∈ S1, ∀ s, cmpE e.1 key s = (.ok .gt, s)) →
    ∀ (S2 : List (κ × ν)) (xk : Option κ) (xv : Option ν),
      (S2 = [] ∧ S1 ≠ []) ∨ (∃ e S', S2 = e :: S' ∧ xk = some e.1 ∧ xv = some e.2) →
      Triple (fun e => e = .explicit) (fun w => w = h.set a (shifted node (P ++ x :: S1) S2 xk xv t u))
        (leafLoop cmpE key a (P ++ x :: S1).length) (fun _ _ => False)
        (fun w => ∃ e S', S1 ++ S2 = e :: S' ∧ w = h.set a { node with
          keys := kS (P ++ x :: e :: e :: S') ++ t, values := vS (P ++ x :: e :: e :: S') ++ u }) := by
  induction S1 using snoc_induction with
  | nil =>
    intro _ S2 xk xv hS
    have hl : (P ++ [x]).length = P.length + 1 := by simp
    rw [hl]
    refine Triple.get_eq (Triple.lift_bind (load_of (List.getElem?_set_self hla)) ?_)
    have i1 := index_mid (kS P) (some x.1) (xk :: (kS S2 ++ t))
    rw [kS_length] at i1
    have hk : (shifted node (P ++ [x]) S2 xk xv t u).keys = kS P ++ some x.1 :: (xk :: (kS S2 ++ t)) := by simp [shifted]
    rw [hk]
    refine Triple.lift_bind i1 (Triple.cmp_bind' ?_ ?_)
    · intro v s e hv he
      rw [hx s] at he
      cases he
      refine ⟨rfl, ?_⟩
      rcases hS with ⟨_, h⟩ | ⟨e, S', rfl, rfl, rfl⟩
      · exact absurd rfl h
      · refine ⟨e, S', rfl, ?_⟩
        rw [hv]
        simp [shifted]
    · intro o s s' ho
      have := hx s
      rw [ho] at this
      cases this
  | snoc S1 p ih =>
    intro hgt S2 xk xv hS
    have hl : (P ++ x :: (S1 ++ [p])).length = (P ++ x :: S1).length + 1 := by simp; omega
    rw [hl]
    refine Triple.get_eq (Triple.lift_bind (load_of (List.getElem?_set_self hla)) ?_)
    have hP : P ++ x :: (S1 ++ [p]) = (P ++ x :: S1) ++ [p] := by simp
    rw [hP]
    generalize hPd : P ++ x :: S1 = P' at *
    have hk : (shifted node (P' ++ [p]) S2 xk xv t u).keys = kS P' ++ some p.1 :: (xk :: (kS S2 ++ t)) := by simp [shifted]
    have hv : (shifted node (P' ++ [p]) S2 xk xv t u).values = vS P' ++ some p.2 :: (xv :: (vS S2 ++ u)) := by simp [shifted]
    have i1 := index_mid (kS P') (some p.1) (xk :: (kS S2 ++ t))
    have i2 := index_mid (vS P') (some p.2) (xv :: (vS S2 ++ u))
    have s1 := setIndex_mid (kS (P' ++ [p])) xk (some p.1) (kS S2 ++ t)
    have s2 := setIndex_mid (vS (P' ++ [p])) xv (some p.2) (vS S2 ++ u)
    rw [kS_length, List.length_append, List.length_singleton] at s1
    rw [vS_length, List.length_append, List.length_singleton] at s2
    rw [kS_length] at i1
    rw [vS_length] at i2
    rw [hk, hv]
    have e1 : kS P' ++ some p.1 :: (xk :: (kS S2 ++ t)) = kS (P' ++ [p]) ++ xk :: (kS S2 ++ t) := by simp
    have e2 : vS P' ++ some p.2 :: (xv :: (vS S2 ++ u)) = vS (P' ++ [p]) ++ xv :: (vS S2 ++ u) := by simp
    have hp := hgt p (by simp)
    refine Triple.lift_bind i1 (Triple.cmp_bind' ?_ fun o s s' ho => ?_)
    · intro v s e _ he
      rw [hp s] at he
      cases he
    · rw [hp s] at ho
      cases ho
      rw [if_pos rfl]
      refine Triple.lift_bind (by rw [e1]; exact s1) (Triple.put_bind (Triple.lift_bind i2 (Triple.lift_bind
        (by rw [e2]; exact s2) (Triple.put_bind ?_))))
      have := ih (fun e he => hgt e (by simp [he])) (p :: S2) (some p.1) (some p.2) (.inr ⟨p, S2, rfl, rfl, rfl⟩)
      rw [List.append_cons S1 p S2] at this
      refine this.weaken fun v hv => ?_
      rw [hv, List.set_set]
      simp [shifted]
end Unwind

/-- A search none of whose comparisons panics. -/
theorem search_run (ha : Answers cmpE cmp) {key : κ} (hno : ∀ k s e, (cmpE key k s).1 ≠ .error e) {h : BStore κ ν}
    {a d : Nat} {node : BNode κ ν} (hn : h[a]? = some node) (hleaf : node.leaf = true) {E : Panic → Prop}
    {X : BStore κ ν → Prop} :
    Triple E (fun w => w = h) (Unwind.search cmpE key (d + 1) a)
      (fun r w => w = h ∧ BTree.search cmp h key (d + 1) a = .ok r) X := by
  have h1 := (search_leaf (E := fun _ => False) (fun k s e he => hno k s e he) (d := d) hn hleaf).and
    (search_ret ha key h (d + 1) a)
  intro v s hv
  have := h1 v s hv
  rcases hr : Unwind.search cmpE key (d + 1) a (v, s) with ⟨e | b, t⟩
  · rw [hr] at this; exact this.1.1.elim
  · rw [hr] at this; exact this.2

/-- An Insert of a key that is in no slot of the root, a leaf which counts fewer than eleven entries: whatever is in the
slot after those it counts is written over. -/
theorem insert_over (hc : LawfulCmp cmp) {h : BStore κ ν} {a len : Nat} {A B L : List (κ × ν)} {key : κ}
    (hA : ∀ e ∈ A, cmp key e.1 = .gt) (hB : ∀ e ∈ B, cmp key e.1 = .lt) (hlen : (A ++ B).length ≤ 10)
    {x : Option κ} {y : Option ν} {t : List (Option κ)} {u : List (Option ν)} {cs : List (Option Nat)}
    (hn : h[a]? = some ⟨true, 0, kS (A ++ B) ++ x :: t, vS (A ++ B) ++ y :: u, (A ++ B).length, cs⟩)
    (hL : L.Pairwise fun a b => cmp a.1 b.1 ≠ .gt) (hk : kS (A ++ B) ++ x :: t = kS L ++ List.replicate (11 - L.length) none)
    (hm : OMap.mem cmp L key = false) (value : ν) :
    BMap.insert cmp h ⟨some a, len⟩ key value = .ok (h.set a ⟨true, 0, kS (A ++ (key, value) :: B) ++ t,
      vS (A ++ (key, value) :: B) ++ u, ((A ++ B).length : Int) + 1, cs⟩, ⟨some a, usize (len + 1)⟩, ⟨none⟩) := by
  have hs : BTree.search cmp h key (h.length + 1) a = .ok none := by
    rcases locate_weak hc hL key with ⟨A', b, B', e, _, hb⟩ | ⟨A', B', e, hA', hB'⟩
    · rw [e, mem_found hb] at hm; cases hm
    · rw [hk, e] at hn
      exact search_fresh_leaf hn rfl rfl hA' hB'
  have hil := insertLeaf_eq hc hn hA hB x y t u rfl rfl rfl value
  simp only [BMap.insert, hs, Go.bind_ok, load_of hn]
  rw [if_neg (by unfold capacity; omega), insertNonFull_leaf hn rfl, hil, Go.bind_ok]
  rfl

theorem lookup_none_of_ne {l : List (κ × ν)} {k : κ} (h : ∀ e ∈ l, cmp k e.1 ≠ .eq) : OMap.lookup cmp l k = none := by
  unfold OMap.lookup
  rw [List.find?_eq_none.2]
  · rfl
  · intro e he
    simpa using h e he

/-- C139 fails: let Cmp panic for the new key and the one stored key `x` only, in a map of at most ten keys, and let the
keys `e`, ..., `b` after `x` be above the new key.  Insert panics, and leaves a map where IntoIter gives `e` twice and
Keys leaves out `b`; the next Insert of a key above `b` then overwrites `b`. -/
theorem C139_insert_fails (hc : LawfulCmp cmp) (g : Growth) {h : BStore κ ν} {m : BMap} {A S : List (κ × ν)}
    {x e b : κ × ν} (hr : BMap.Reached cmp h m (A ++ x :: e :: (S ++ [b]))) (hlen : (A ++ x :: e :: (S ++ [b])).length ≤ 10)
    {key : κ} (hm : OMap.mem cmp (A ++ x :: e :: (S ++ [b])) key = false) (he : cmp key e.1 = .lt) (value : ν) (s : σ) :
    ∃ h' s', Unwind.bInsert (panicPair cmp x.1 key) m key value (h, s) = (.error .explicit, (h', s')) ∧
      (∃ it, BMap.intoIter g h' m = .ok it ∧ ∀ n, it.nexts n = .ok ((List.range n).map fun i =>
        ((A ++ x :: e :: e :: (S ++ [b]))[i]?).map fun e => ⟨e.1, e.2⟩)) ∧
      (∃ it, BMap.keys g h' m = .ok it ∧ ∀ n, it.nexts n = .ok ((List.range n).map fun i =>
        ((A ++ x :: e :: e :: S)[i]?).map (·.1))) ∧
      ∀ key2 value2, cmp b.1 key2 = .lt → ∃ h2 m2, BMap.insert cmp h' m key2 value2 = .ok (h2, m2, ⟨none⟩) ∧
        m2.length = (A ++ x :: e :: (S ++ [b])).length + 1 ∧ BMap.get cmp h2 m2 b.1 = .ok ⟨none⟩ := by
  obtain ⟨fp, hg⟩ := hr.good hc
  generalize hl : A ++ x :: e :: (S ++ [b]) = l at *
  have hne : l ≠ [] := by rw [← hl]; simp
  obtain ⟨a, hroot, rfl, hle, cs, hn⟩ := hg.isLeaf hne (by omega)
  have hla := (List.getElem?_eq_some_iff.1 hn).1
  have asc := hg.asc
  have hml := hg.len
  obtain ⟨root, len⟩ := m
  simp only at hroot hml
  subst hroot
  have hmem : ∀ y ∈ l, cmp key y.1 ≠ .eq := by
    intro y hy hq
    have : OMap.mem cmp l key = true := by
      unfold OMap.mem
      exact List.any_eq_true.2 ⟨y, hy, by simp [hq]⟩
    rw [hm] at this; cases this
  have hxl : x ∈ l := by rw [← hl]; simp
  -- the run up to the panic
  obtain ⟨c, hcc⟩ : ∃ c, 11 - l.length = c + 1 := ⟨10 - l.length, by omega⟩
  have hn2 := hn
  rw [hcc, List.replicate_succ, List.replicate_succ] at hn2
  have hsearch : ∀ k s er, (panicPair (σ := σ) cmp x.1 key key k s).1 ≠ .error er := by
    intro k s er hk
    unfold panicPair at hk
    rw [if_neg (fun h => hmem x hxl h.1)] at hk
    cases hk
  have after : ∀ y ∈ e :: (S ++ [b]), cmp x.1 y.1 = .lt ∧ cmp y.1 key = .gt := by
    rw [← hl] at asc
    have h1 := (List.pairwise_append.1 asc).2.1
    rw [List.pairwise_cons, List.pairwise_cons] at h1
    intro y hy
    refine ⟨h1.1 y hy, ?_⟩
    rw [hc.gt_iff]
    rcases List.mem_cons.1 hy with rfl | hy
    · exact he
    · exact hc.lt_trans he (h1.2.1 y hy)
  have hrun : Triple (fun er => er = .explicit) (fun w => w = h)
      (Unwind.bInsert (panicPair (σ := σ) cmp x.1 key) ⟨some a, len⟩ key value) (fun _ _ => False)
      (fun w => ShowsLeaf w ⟨some a, len⟩ (A ++ x :: e :: e :: (S ++ [b])) l.length) := by
    unfold Unwind.bInsert
    simp only
    refine Triple.get_eq ?_
    refine Triple.bind (search_run (panicPair_answers cmp x.1 key) hsearch hn rfl) fun r => Triple.given fun hr => ?_
    have hs : BTree.search cmp h key (h.length + 1) a = .ok none := by
      rcases locate_weak hc (weak_of_asc asc) key with ⟨A', b, B', e, _, hb⟩ | ⟨A', B', e, hA', hB'⟩
      · rw [e, mem_found hb] at hm; cases hm
      · rw [e] at hn
        exact search_fresh_leaf hn rfl rfl hA' hB'
    rw [hs] at hr
    cases hr
    simp only
    refine Triple.lift_bind (load_of hn) ?_
    rw [if_neg (by unfold capacity; simp only; omega)]
    refine Triple.bind (R := fun _ _ => False) ?_ fun _ v s hv => hv.elim
    refine insertNonFull_leaf_eq hn rfl key value ?_
    refine Triple.get_eq (Triple.lift_bind (load_of hn2) ?_)
    refine Triple.bind (R := fun _ _ => False) ?_ fun _ v s hv => hv.elim
    have hsame : h.set a (shifted ⟨true, 0, kS l ++ none :: List.replicate c none, vS l ++ none :: List.replicate c none,
        l.length, cs⟩ (A ++ x :: e :: (S ++ [b])) [] none none (List.replicate c none) (List.replicate c none)) = h := by
      rw [hl]; exact set_same hn2
    have hlp := leafLoop_panics (cmpE := panicPair (σ := σ) cmp x.1 key) (key := key) (P := A) (x := x)
      (node := ⟨true, 0, kS l ++ none :: List.replicate c none, vS l ++ none :: List.replicate c none, l.length, cs⟩)
      hla (t := List.replicate c none) (u := List.replicate c none)
      (fun s => by unfold panicPair; rw [if_pos ⟨hc.refl _, hc.refl _⟩]) (e :: (S ++ [b]))
      (fun y hy s => by
        unfold panicPair
        rw [if_neg, (after y hy).2]
        rintro ⟨h1, _⟩
        have := (hc.gt_iff _ _).2 (after y hy).1
        rw [h1] at this; cases this) [] none none (.inl ⟨rfl, by simp⟩)
    rw [hsame, hl] at hlp
    refine hlp.post (fun _ he => he) (fun _ _ hq => hq) ?_
    rintro w ⟨e', S', e1, rfl⟩
    rw [List.append_nil, List.cons.injEq] at e1
    obtain ⟨rfl, rfl⟩ := e1
    have hl1 : (A ++ x :: e :: e :: (S ++ [b])).length = l.length + 1 := by rw [← hl]; simp; omega
    refine ⟨by omega, a, cs, rfl, ?_⟩
    have : 11 - (l.length + 1) = c := by omega
    rw [List.getElem?_set_self hla, hl1, this]
  have hrun' := hrun h s rfl
  rcases hres : Unwind.bInsert (panicPair (σ := σ) cmp x.1 key) ⟨some a, len⟩ key value (h, s) with ⟨er | r, h', s'⟩
  rotate_left
  · rw [hres] at hrun'; exact hrun'.elim
  rw [hres] at hrun'
  obtain ⟨rfl, hsh⟩ := hrun'
  have htake : (A ++ x :: e :: e :: (S ++ [b])).take l.length = A ++ x :: e :: e :: S := by
    have e1 : A ++ x :: e :: e :: (S ++ [b]) = (A ++ x :: e :: e :: S) ++ [b] := by simp
    have e2 : l.length = (A ++ x :: e :: e :: S).length := by rw [← hl]; simp
    rw [e1, e2, List.take_left]
  refine ⟨h', s', rfl, hsh.toVec g, ?_, ?_⟩
  · have := hsh.keys (by omega) g
    rw [htake] at this
    exact this
  · intro key2 value2 hb2
    have hw : (A ++ x :: e :: e :: (S ++ [b])).Pairwise fun a b => cmp a.1 b.1 ≠ .gt := by
      refine weak_doubled hc asc ⟨A ++ [x], e, S ++ [b], ?_, ?_⟩
      · rw [← hl]; simp
      · simp
    have hall : ∀ y ∈ A ++ x :: e :: e :: S, cmp y.1 b.1 = .lt := by
      rw [← hl] at asc
      have e1 : A ++ x :: e :: (S ++ [b]) = (A ++ x :: e :: S) ++ [b] := by simp
      rw [e1] at asc
      intro y hy
      refine (List.pairwise_append.1 asc).2.2 y ?_ b (by simp)
      simp only [List.mem_append, List.mem_cons] at hy ⊢
      rcases hy with h | h | h | h | h
      · exact .inl h
      · exact .inr (.inl h)
      · exact .inr (.inr (.inl h))
      · exact .inr (.inr (.inl h))
      · exact .inr (.inr (.inr h))
    have hA2 : ∀ y ∈ A ++ x :: e :: e :: S, cmp key2 y.1 = .gt := by
      intro y hy
      exact (hc.lt_iff _ _).1 (hc.lt_trans (hall y hy) hb2)
    obtain ⟨_, a', cs', hra, hn'⟩ := hsh
    cases hra
    have hl1 : (A ++ x :: e :: e :: (S ++ [b])).length = l.length + 1 := by rw [← hl]; simp; omega
    have hl2 : (A ++ x :: e :: e :: S ++ []).length = l.length := by rw [← hl]; simp
    have hkeq : kS (A ++ x :: e :: e :: S ++ []) ++ some b.1 :: List.replicate c none =
        kS (A ++ x :: e :: e :: (S ++ [b])) ++ List.replicate (11 - (A ++ x :: e :: e :: (S ++ [b])).length) none := by
      have : 11 - (l.length + 1) = c := by omega
      rw [hl1, this]; simp
    have hveq : vS (A ++ x :: e :: e :: S ++ []) ++ some b.2 :: List.replicate c none =
        vS (A ++ x :: e :: e :: (S ++ [b])) ++ List.replicate (11 - (A ++ x :: e :: e :: (S ++ [b])).length) none := by
      have : 11 - (l.length + 1) = c := by omega
      rw [hl1, this]; simp
    have hm2 : OMap.mem cmp (A ++ x :: e :: e :: (S ++ [b])) key2 = false := by
      refine mem_fresh (A := A ++ x :: e :: e :: (S ++ [b])) (B := []) ?_ (by simp) |> (by simpa using ·)
      intro y hy
      by_cases hyb : y = b
      · rw [hyb]; exact (hc.lt_iff _ _).1 hb2
      · refine hA2 y ?_
        simp at hy ⊢
        rcases hy with h | h | h | h | h <;> simp_all
    rw [← hkeq, ← hveq, ← hl2] at hn'
    have hins := insert_over hc (len := len) hA2 (by simp) (by rw [hl2]; exact hlen) hn' hw hkeq hm2 value2
    refine ⟨_, _, hins, ?_, ?_⟩
    · have : usize (len + 1) = l.length + 1 := by rw [hml]; unfold usize; omega
      exact this
    · have hs2 : ShowsLeaf (h'.set a ⟨true, 0, kS (A ++ x :: e :: e :: S ++ (key2, value2) :: []) ++ List.replicate c none,
          vS (A ++ x :: e :: e :: S ++ (key2, value2) :: []) ++ List.replicate c none,
          ((A ++ x :: e :: e :: S ++ []).length : Int) + 1, cs'⟩) ⟨some a, usize (len + 1)⟩
          (A ++ x :: e :: e :: S ++ (key2, value2) :: []) (((A ++ x :: e :: e :: S ++ []).length : Int) + 1) := by
        have hl3 : (A ++ x :: e :: e :: S ++ (key2, value2) :: []).length = l.length + 1 := by rw [← hl]; simp; omega
        refine ⟨by omega, a, cs', rfl, ?_⟩
        have : 11 - (l.length + 1) = c := by omega
        rw [List.getElem?_set_self (List.getElem?_eq_some_iff.1 hn').1, hl3, this]
      rw [hs2.get hc ?_ b.1, lookup_none_of_ne]
      · intro y hy hq
        rcases List.mem_append.1 hy with hy | hy
        · have := (hc.lt_iff _ _).1 (hall y hy)
          rw [hq] at this; cases this
        · simp at hy
          subst hy
          rw [hb2] at hq; cases hq
      · rw [List.pairwise_append]
        refine ⟨?_, by simp, ?_⟩
        · have e1 : A ++ x :: e :: e :: (S ++ [b]) = (A ++ x :: e :: e :: S) ++ [b] := by simp
          rw [e1] at hw
          exact (List.pairwise_append.1 hw).1
        · intro y hy z hz
          simp at hz
          subst hz
          rw [(hc.lt_iff _ _).2 (hA2 y hy)]; decide

/-- C139 fails: in a map of eleven keys the root is split before Cmp is asked which half the new key belongs to.  If
that comparison with the largest key `q` panics, the next Insert of the new key, with a Cmp that works, overwrites `q`. -/
theorem C139_full_fails (hc : LawfulCmp cmp) {h : BStore κ ν} {m : BMap} {Y : List (κ × ν)} {q : κ × ν}
    (hr : BMap.Reached cmp h m (Y ++ [q])) (h11 : (Y ++ [q]).length = 11) {key : κ}
    (hm : OMap.mem cmp (Y ++ [q]) key = false) (value : ν) (s : σ) :
    ∃ h' s', Unwind.bInsert (panicPair cmp q.1 key) m key value (h, s) = (.error .explicit, (h', s')) ∧
      ∃ h2 m2, BMap.insert cmp h' m key value = .ok (h2, m2, ⟨none⟩) ∧ m2.length = 12 ∧
        BMap.get cmp h2 m2 q.1 = .ok ⟨none⟩ ∧ ∀ k, BMap.get cmp h2 m2 k = .ok ⟨OMap.lookup cmp (OMap.insert cmp Y key value) k⟩ := by
  obtain ⟨fp, hg⟩ := hr.good hc
  obtain ⟨a, hroot, rfl, hle, cs, hn⟩ := hg.isLeaf (by simp) (by omega)
  have hla := (List.getElem?_eq_some_iff.1 hn).1
  have asc := hg.asc
  have hml := hg.len
  obtain ⟨root, len⟩ := m
  simp only at hroot hml
  subst hroot
  have hY : Y.length = 10 := by simpa using h11
  have hqk : cmp key q.1 ≠ .eq := by
    intro hq
    have : OMap.mem cmp (Y ++ [q]) key = true := by
      unfold OMap.mem
      exact List.any_eq_true.2 ⟨q, by simp, by simp [hq]⟩
    rw [hm] at this; cases this
  have hsearch : ∀ k s er, (panicPair (σ := σ) cmp q.1 key key k s).1 ≠ .error er := by
    intro k s er hk
    unfold panicPair at hk
    rw [if_neg (fun h => hqk h.1)] at hk
    cases hk
  have hrun : Triple (fun er => er = .explicit) (fun w => w = h)
      (Unwind.bInsert (panicPair (σ := σ) cmp q.1 key) ⟨some a, len⟩ key value) (fun _ _ => False)
      (fun w => w[a]? = some ⟨true, 0, kS (Y ++ [q]), vS (Y ++ [q]), 10, cs⟩) := by
    unfold Unwind.bInsert
    simp only
    refine Triple.get_eq ?_
    refine Triple.bind (search_run (panicPair_answers cmp q.1 key) hsearch hn rfl) fun r => Triple.given fun hr => ?_
    have hs : BTree.search cmp h key (h.length + 1) a = .ok none := by
      rcases locate_weak hc (weak_of_asc asc) key with ⟨A', b, B', e, _, hb⟩ | ⟨A', B', e, hA', hB'⟩
      · rw [e, mem_found hb] at hm; cases hm
      · rw [e] at hn
        exact search_fresh_leaf hn rfl rfl hA' hB'
    rw [hs] at hr
    cases hr
    simp only
    refine Triple.lift_bind (load_of hn) ?_
    rw [if_pos (by rw [h11]; rfl)]
    have hcs : setIndex (blank false capacity 0 : BNode κ ν).childs 0 (some a) =
      .ok (some a :: List.replicate 11 none) := rfl
    refine Triple.lift_bind hcs ?_
    let nr : BNode κ ν := ⟨false, 11, List.replicate 11 none, List.replicate 11 none, 0,
      some a :: List.replicate 11 none⟩
    have h0a : (h ++ [nr])[h.length]? = some nr := by simp
    have h0y : (h ++ [nr])[a]? = some ⟨true, 0, kS (Y ++ [q]), vS (Y ++ [q]), 11, cs⟩ := by
      rw [List.getElem?_append_left hla, hn, h11]; simp
    obtain ⟨h1, hsp, hl1, h1a, h1y, h1z, h1o⟩ := splitChild_facts h0a h0y (by omega) rfl rfl rfl
      (i := 0) (PK := []) (AK := [none]) (x := none) (BK := List.replicate 9 none) (PV := []) (AV := [none])
      (v := none) (BV := List.replicate 9 none) (PC := [some a]) (AC := []) (c := none) (BC := List.replicate 10 none)
      (ky := some q.1) (vy := some q.2) rfl rfl rfl rfl rfl rfl rfl rfl rfl
      (by simp only [kS_append]; rw [← hY, ← kS_length Y]; simp)
      (by simp only [vS_append]; rw [← hY, ← vS_length Y]; simp)
    refine Triple.lift_bind hsp (Triple.put_bind (Triple.lift_bind (load_of h1a) (Triple.lift_bind
      (b := some q.1) rfl (Triple.lift_bind (b := q.1) rfl ?_))))
    refine Triple.cmp_bind' ?_ fun o s s' ho => ?_
    · intro v s e hv he
      unfold panicPair at he
      rw [if_pos ⟨hc.refl _, hc.refl _⟩] at he
      cases he
      exact ⟨rfl, by rw [hv]; exact h1y⟩
    · unfold panicPair at ho
      rw [if_pos ⟨hc.refl _, hc.refl _⟩] at ho
      cases ho
  have hrun' := hrun h s rfl
  rcases hres : Unwind.bInsert (panicPair (σ := σ) cmp q.1 key) ⟨some a, len⟩ key value (h, s) with ⟨er | r, h', s'⟩
  rotate_left
  · rw [hres] at hrun'; exact hrun'.elim
  rw [hres] at hrun'
  obtain ⟨rfl, hn'⟩ := hrun'
  simp only at hn'
  refine ⟨h', s', rfl, ?_⟩
  have ascY : Ascending cmp Y := (List.pairwise_append.1 asc).1
  have hYq : ∀ y ∈ Y, cmp y.1 q.1 = .lt := fun y hy => (List.pairwise_append.1 asc).2.2 y hy q (by simp)
  have hmY : OMap.mem cmp Y key = false := by
    unfold OMap.mem at hm ⊢
    rw [List.any_append, Bool.or_eq_false_iff] at hm
    exact hm.1
  rcases locate hc ascY key with ⟨A, b, B, e, _, hb, _⟩ | ⟨A, B, e, hA, hB⟩
  · rw [e, mem_found hb] at hmY; cases hmY
  · have hn2 : h'[a]? = some ⟨true, 0, kS (A ++ B) ++ some q.1 :: [], vS (A ++ B) ++ some q.2 :: [], ((A ++ B).length : Nat), cs⟩ := by
      rw [hn', ← e, hY]; simp
    have hins := insert_over hc (len := len) hA hB (by rw [← e]; omega) hn2 (weak_of_asc asc)
      (by rw [← e, h11]; simp) hm value
    have hi : OMap.insert cmp Y key value = A ++ (key, value) :: B := by rw [e]; exact BTree.insert_fresh hc hA hB value
    have hs2 : ShowsLeaf (h'.set a ⟨true, 0, kS (A ++ (key, value) :: B) ++ [], vS (A ++ (key, value) :: B) ++ [],
        ((A ++ B).length : Int) + 1, cs⟩) ⟨some a, usize (len + 1)⟩ (A ++ (key, value) :: B)
        (((A ++ B).length : Int) + 1) := by
      have hl3 : (A ++ (key, value) :: B).length = 11 := by rw [e] at hY; simp at hY ⊢; omega
      refine ⟨by omega, a, cs, rfl, ?_⟩
      rw [List.getElem?_set_self (List.getElem?_eq_some_iff.1 hn').1, hl3]
      simp
    have hget : ∀ k, _ := hs2.get hc (weak_of_asc (hi ▸ OMap.ascending_insert hc ascY key value))
    refine ⟨_, _, hins, ?_, ?_, ?_⟩
    · have : usize (len + 1) = 12 := by rw [hml, h11]; rfl
      exact this
    · rw [hget, lookup_none_of_ne]
      intro y hy hq
      have hy' : y ∈ Y ∨ y = (key, value) := by
        rw [e]; simp at hy ⊢; rcases hy with h | h | h <;> simp [h]
      rcases hy' with hy | rfl
      · have := (hc.lt_iff _ _).1 (hYq y hy)
        rw [hq] at this; cases this
      · exact hqk ((hc.eq_comm _ _).1 hq)
    · rw [hi]; exact hget

/-! ### Concrete cases -/

/-- Keys 10, 20, ..., each with its value. -/
def tens (n : Nat) : List (HOp Nat Nat) := (List.range n).map fun i => .insert (10 * (i + 1)) i

def showKeys (h : BStore Nat Nat) : List (List (Option Nat) × Int) := h.map fun n => (n.keys.filter (·.isSome), n.n)

-- the hypotheses of `C139_insert_partial` and `C139_insert_fails`, and what the run leaves
example : ∃ h m, BMap.Reached compare h m [(10, 0), (20, 1), (30, 2), (40, 3)] ∧
    OMap.mem compare [(10, 0), (20, 1), (30, 2), (40, 3)] 25 = false ∧ compare 25 30 = Ordering.lt ∧
    (Unwind.bInsert (panicPair (σ := Unit) compare 20 25) m 25 9 (h, ())).1 = .error .explicit ∧
    showKeys (Unwind.bInsert (panicPair (σ := Unit) compare 20 25) m 25 9 (h, ())).2.1 =
      [([some 10, some 20, some 30, some 30, some 40], 4)] :=
  ⟨_, _, ⟨[], tens 4, _, by decide, rfl, by decide⟩, by decide, by decide, by decide, by decide⟩
-- a panic of the first comparison (a search) leaves the nodes; so does any panic in Remove
example : ∃ h m, BMap.Reached compare h m [(10, 0), (20, 1), (30, 2), (40, 3)] ∧
    (Unwind.bInsert (panicAt 0) m 25 9 (h, 0)).1 = .error .explicit ∧
    showKeys (Unwind.bInsert (panicAt 0) m 25 9 (h, 0)).2.1 = [([some 10, some 20, some 30, some 40], 4)] ∧
    (Unwind.bRemove (panicAt 6) m 30 (h, 0)).1 = .error .explicit ∧
    showKeys (Unwind.bRemove (panicAt 6) m 30 (h, 0)).2.1 = [([some 10, some 20, some 30, some 40], 4)] ∧
    showKeys (Unwind.bRemove (panicAt 8) m 30 (h, 0)).2.1 = [([some 10, some 20, some 40], 3)] ∧
    Answers (panicAt 6) compare :=
  ⟨_, _, ⟨[], tens 4, _, by decide, rfl, by decide⟩, by decide, by decide, by decide, by decide, by decide,
    panicAt_answers 6⟩
-- eleven keys: the split has happened
example : ∃ h m, BMap.Reached compare h m ((List.range 11).map fun i => (10 * (i + 1), i)) ∧
    OMap.mem compare ((List.range 11).map fun i => (10 * (i + 1), i)) 25 = false ∧
    (Unwind.bInsert (panicPair (σ := Unit) compare 110 25) m 25 9 (h, ())).1 = .error .explicit ∧
    (showKeys (Unwind.bInsert (panicPair (σ := Unit) compare 110 25) m 25 9 (h, ())).2.1).map (·.2) = [10, 1, 10] :=
  ⟨_, _, ⟨[], tens 11, _, by decide +kernel, rfl, by decide +kernel⟩, by decide, by decide +kernel, by decide +kernel⟩

end Gost
