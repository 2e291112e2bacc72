import Verif.Props.Display
/-
Property C163: the text of containers of numbers, nested in each other, identifies the value.
-/
set_option linter.unusedSectionVars false
namespace Gost.Shown
open Spec Utf8

/-! ### Specification: nested values and their texts -/

/-- The kinds of values whose text has brackets: the containers, Some and Ok. -/
inductive Kind where
  | vec | deque | list | hashMap | hashSet | treeMap | treeSet | some | ok
  deriving DecidableEq, Repr

def Kind.name : Kind → List Char
  | vec => ['V', 'e', 'c']
  | deque => ['V', 'e', 'c', 'D', 'e', 'q', 'u', 'e']
  | list => ['L', 'i', 'n', 'k', 'e', 'd', 'L', 'i', 's', 't']
  | hashMap => ['H', 'a', 's', 'h', 'M', 'a', 'p']
  | hashSet => ['H', 'a', 's', 'h', 'S', 'e', 't']
  | treeMap => ['B', 'T', 'r', 'e', 'e', 'M', 'a', 'p']
  | treeSet => ['B', 'T', 'r', 'e', 'e', 'S', 'e', 't']
  | some => ['S', 'o', 'm', 'e']
  | ok => ['O', 'k']
def Kind.left : Kind → Char
  | vec | deque | list => '['
  | hashMap | hashSet | treeMap | treeSet => '{'
  | some | ok => '('
def Kind.right : Kind → Char
  | vec | deque | list => ']'
  | hashMap | hashSet | treeMap | treeSet => '}'
  | some | ok => ')'

mutual
/-- A value: one without parts, or a container. -/
inductive Val (L : Type) where
  | leaf (l : L)
  | node (k : Kind) (is : Items L)
/-- What a container contains, in order: elements, or entries of a map. -/
inductive Items (L : Type) where
  | nil
  | elem (v : Val L) (rest : Items L)
  | entry (k v : Val L) (rest : Items L)
end

variable {L : Type}

mutual
/-- The text of a value. -/
def Val.text (t : L → GoStr) : Val L → GoStr
  | .leaf l => t l
  | .node k is => utf8 (k.name ++ [k.left]) ++ commas (is.texts t) ++ utf8 [k.right]
def Items.texts (t : L → GoStr) : Items L → List GoStr
  | .nil => []
  | .elem v rest => v.text t :: rest.texts t
  | .entry k v rest => (k.text t ++ utf8 [':', ' '] ++ v.text t) :: rest.texts t
end

def Items.ofElems : List (Val L) → Items L
  | [] => .nil
  | v :: vs => .elem v (ofElems vs)
def Items.ofEntries : List (Val L × Val L) → Items L
  | [] => .nil
  | (k, v) :: es => .entry k v (ofEntries es)

/-- The characters with which the parts of a text are told apart: `,` `:` and the brackets. -/
def special (b : UInt8) : Bool := [44, 58, 91, 93, 123, 125, 40, 41].contains b
/-- Those that come after a part. -/
def ending (b : UInt8) : Bool := [44, 58, 93, 125, 41].contains b

/-- A text without these characters. -/
def Plain (s : GoStr) : Prop := s ≠ [] ∧ ∀ b ∈ s, special b = false

/-! ### Reading a text -/

theorem ending_special {b : UInt8} (h : ending b = true) : special b = true := by
  simp only [ending, List.contains_eq_mem, List.mem_cons, List.not_mem_nil, or_false, decide_eq_true_eq] at h
  rcases h with rfl | rfl | rfl | rfl | rfl <;> decide

def Opens (r : GoStr) : Prop := ∀ b ∈ r.head?, special b = true
def Ends (r : GoStr) : Prop := ∀ b ∈ r.head?, ending b = true

theorem Ends.opens {r : GoStr} (h : Ends r) : Opens r := fun b hb => ending_special (h b hb)
theorem ends_nil : Ends [] := fun b hb => by cases hb
theorem ends_cons {b : UInt8} {r : GoStr} (h : ending b = true) : Ends (b :: r) := fun c hc => by cases hc; exact h

theorem plain_split {a b x y : GoStr} (ha : ∀ c ∈ a, special c = false) (hb : ∀ c ∈ b, special c = false) (hx : Opens x) (hy : Opens y)
    (h : a ++ x = b ++ y) : a = b ∧ x = y := by
  induction a generalizing b with
  | nil =>
    cases b with
    | nil => exact ⟨rfl, h⟩
    | cons c b =>
      have h : x = c :: (b ++ y) := h
      have := hx c (by rw [h]; rfl)
      rw [hb c (by simp)] at this
      cases this
  | cons c a ih =>
    cases b with
    | nil =>
      have h : c :: (a ++ x) = y := h
      have := hy c (by rw [← h]; rfl)
      rw [ha c (by simp)] at this
      cases this
    | cons c' b =>
      simp only [List.cons_append, List.cons.injEq] at h
      obtain ⟨e1, e2⟩ := ih (fun d m => ha d (List.mem_cons_of_mem _ m)) (fun d m => hb d (List.mem_cons_of_mem _ m)) h.2
      exact ⟨by rw [h.1, e1], e2⟩

theorem Kind.facts (k : Kind) : ∃ l r, utf8 [k.left] = [l] ∧ utf8 [k.right] = [r] ∧ special l = true ∧ ending l = false ∧
    ending r = true ∧ r ≠ 44 ∧ r ≠ 58 ∧ Plain (utf8 k.name) ∧ utf8 (k.name ++ [k.left]) = utf8 k.name ++ [l] := by
  have h1 : utf8 (k.name ++ [k.left]) = utf8 k.name ++ utf8 [k.left] := by simp [utf8]
  cases k <;> first
    | exact ⟨91, 93, by decide, by decide, by decide, by decide, by decide, by decide, by decide, ⟨by decide, by decide⟩, h1⟩
    | exact ⟨123, 125, by decide, by decide, by decide, by decide, by decide, by decide, by decide, ⟨by decide, by decide⟩, h1⟩
    | exact ⟨40, 41, by decide, by decide, by decide, by decide, by decide, by decide, by decide, ⟨by decide, by decide⟩, h1⟩

theorem Kind.name_inj (k k' : Kind) (h : utf8 k.name = utf8 k'.name) : k = k' := by
  revert h
  cases k <;> cases k' <;> decide

/-- What follows the first of several parts. -/
def after : List GoStr → GoStr → GoStr
  | [], x => x
  | s :: ss, x => 44 :: 32 :: (commas (s :: ss) ++ x)

theorem commas_after (s : GoStr) (ss : List GoStr) (x : GoStr) : commas (s :: ss) ++ x = s ++ after ss x := by
  have hsep : utf8 [',', ' '] = [44, 32] := by decide
  cases ss with
  | nil => rfl
  | cons a as => simp [commas, after, hsep]

theorem after_ends (ss : List GoStr) {e : UInt8} (he : ending e = true) (r : GoStr) : Ends (after ss (e :: r)) := by
  cases ss with
  | nil => exact ends_cons he
  | cons s ss => exact ends_cons (by decide)

theorem after_ne (ss : List GoStr) {e : UInt8} (he : e ≠ 58) (r x : GoStr) : after ss (e :: r) ≠ 58 :: x := by
  cases ss with
  | nil => intro h; simp only [after, List.cons.injEq] at h; exact he h.1
  | cons s ss => intro h; simp [after] at h

theorem Val.text_head {t : L → GoStr} (ht : ∀ l, Plain (t l)) (v : Val L) : ∃ b s, v.text t = b :: s ∧ special b = false := by
  cases v with
  | leaf l =>
    obtain ⟨h1, h2⟩ := ht l
    simp only [Val.text]
    cases hl : t l with
    | nil => exact absurd hl h1
    | cons b s => exact ⟨b, s, rfl, h2 b (by rw [hl]; simp)⟩
  | node k is =>
    obtain ⟨l, r, -, -, -, -, -, -, -, ⟨h1, h2⟩, h3⟩ := k.facts
    simp only [Val.text, h3]
    cases hn : utf8 k.name with
    | nil => exact absurd hn h1
    | cons b s => exact ⟨b, _, rfl, h2 b (by rw [hn]; simp)⟩

theorem after_unique {ss ss' : List GoStr} {e : UInt8} (he : e ≠ 44) {r r' : GoStr} (h : after ss (e :: r) = after ss' (e :: r')) :
    (ss = [] ↔ ss' = []) ∧ commas ss ++ e :: r = commas ss' ++ e :: r' := by
  cases ss with
  | nil =>
    cases ss' with
    | nil => exact ⟨Iff.rfl, h⟩
    | cons s ss' => simp only [after, List.cons.injEq] at h; exact absurd h.1 he
  | cons s ss =>
    cases ss' with
    | nil => simp only [after, List.cons.injEq] at h; exact absurd h.1.symm he
    | cons s' ss' =>
      simp only [after, List.cons.injEq, true_and] at h
      exact ⟨by simp, h⟩

mutual
theorem Val.unique {t : L → GoStr} (ht : ∀ l, Plain (t l)) (hi : ∀ l l', t l = t l' → l = l') : ∀ (v w : Val L) (r r' : GoStr),
    Ends r → Ends r' → v.text t ++ r = w.text t ++ r' → v = w ∧ r = r'
  | .leaf l, .leaf l', r, r', hr, hr', h => by
    simp only [Val.text] at h
    obtain ⟨e1, e2⟩ := plain_split (ht l).2 (ht l').2 hr.opens hr'.opens h
    exact ⟨by rw [hi _ _ e1], e2⟩
  | .leaf l, .node k is, r, r', hr, hr', h => by
    exfalso
    obtain ⟨x, y, h1, h2, h3, h4, h5, h6, h7, h8, h9⟩ := k.facts
    simp only [Val.text, h9, h2, List.append_assoc, List.cons_append, List.nil_append] at h
    obtain ⟨e1, e2⟩ := plain_split (ht l).2 h8.2 hr.opens (fun b hb => by cases hb; exact h3) h
    have := hr x (by rw [e2]; rfl)
    rw [h4] at this
    cases this
  | .node k is, .leaf l, r, r', hr, hr', h => by
    exfalso
    obtain ⟨x, y, h1, h2, h3, h4, h5, h6, h7, h8, h9⟩ := k.facts
    simp only [Val.text, h9, h2, List.append_assoc, List.cons_append, List.nil_append] at h
    obtain ⟨e1, e2⟩ := plain_split h8.2 (ht l).2 (fun b hb => by cases hb; exact h3) hr'.opens h
    have := hr' x (by rw [← e2]; rfl)
    rw [h4] at this
    cases this
  | .node k is, .node k' is', r, r', hr, hr', h => by
    obtain ⟨x, y, h1, h2, h3, h4, h5, h6, h7, h8, h9⟩ := k.facts
    obtain ⟨x', y', h1', h2', h3', h4', h5', h6', h7', h8', h9'⟩ := k'.facts
    simp only [Val.text, h9, h2, h9', h2', List.append_assoc, List.cons_append, List.nil_append] at h
    obtain ⟨e1, e2⟩ := plain_split h8.2 h8'.2 (fun b hb => by cases hb; exact h3) (fun b hb => by cases hb; exact h3') h
    obtain rfl := Kind.name_inj k k' e1
    rw [h2] at h2'
    cases h2'
    simp only [List.cons.injEq] at e2
    obtain ⟨e3, e4⟩ := Items.unique ht hi is is' y r r' h5 h6 h7 e2.2
    exact ⟨by rw [e3], e4⟩
theorem Items.unique {t : L → GoStr} (ht : ∀ l, Plain (t l)) (hi : ∀ l l', t l = t l' → l = l') : ∀ (i j : Items L) (e : UInt8) (r r' : GoStr),
    ending e = true → e ≠ 44 → e ≠ 58 → commas (i.texts t) ++ e :: r = commas (j.texts t) ++ e :: r' → i = j ∧ r = r'
  | .nil, .nil, e, r, r', he, h44, h58, h => by
    simp only [Items.texts, commas, List.nil_append, List.cons.injEq] at h
    exact ⟨rfl, h.2⟩
  | .nil, .elem w j, e, r, r', he, h44, h58, h => by
    exfalso
    obtain ⟨b, s, hb, hs⟩ := Val.text_head ht w
    simp only [Items.texts, commas_after, hb, commas, List.nil_append, List.cons_append, List.cons.injEq] at h
    rw [← h.1, ending_special he] at hs
    cases hs
  | .nil, .entry w w' j, e, r, r', he, h44, h58, h => by
    exfalso
    obtain ⟨b, s, hb, hs⟩ := Val.text_head ht w
    simp only [Items.texts, commas_after, hb, commas, List.nil_append, List.cons_append, List.cons.injEq] at h
    rw [← h.1, ending_special he] at hs
    cases hs
  | .elem v i, .nil, e, r, r', he, h44, h58, h => by
    exfalso
    obtain ⟨b, s, hb, hs⟩ := Val.text_head ht v
    simp only [Items.texts, commas_after, hb, commas, List.nil_append, List.cons_append, List.cons.injEq] at h
    rw [h.1, ending_special he] at hs
    cases hs
  | .entry v v' i, .nil, e, r, r', he, h44, h58, h => by
    exfalso
    obtain ⟨b, s, hb, hs⟩ := Val.text_head ht v
    simp only [Items.texts, commas_after, hb, commas, List.nil_append, List.cons_append, List.cons.injEq] at h
    rw [h.1, ending_special he] at hs
    cases hs
  | .elem v i, .elem w j, e, r, r', he, h44, h58, h => by
    simp only [Items.texts, commas_after] at h
    obtain ⟨e1, e2⟩ := Val.unique ht hi v w _ _ (after_ends _ he r) (after_ends _ he r') h
    obtain ⟨e3, e4⟩ := Items.unique ht hi i j e r r' he h44 h58 (after_unique h44 e2).2
    exact ⟨by rw [e1, e3], e4⟩
  | .elem v i, .entry w w' j, e, r, r', he, h44, h58, h => by
    exfalso
    have hsep : utf8 [':', ' '] = [58, 32] := by decide
    simp only [Items.texts, commas_after, hsep, List.append_assoc, List.cons_append, List.nil_append] at h
    obtain ⟨e1, e2⟩ := Val.unique ht hi v w _ _ (after_ends _ he r) (ends_cons (by decide)) h
    exact after_ne _ h58 _ _ e2
  | .entry v v' i, .elem w j, e, r, r', he, h44, h58, h => by
    exfalso
    have hsep : utf8 [':', ' '] = [58, 32] := by decide
    simp only [Items.texts, commas_after, hsep, List.append_assoc, List.cons_append, List.nil_append] at h
    obtain ⟨e1, e2⟩ := Val.unique ht hi v w _ _ (ends_cons (by decide)) (after_ends _ he r') h
    exact after_ne _ h58 _ _ e2.symm
  | .entry v v' i, .entry w w' j, e, r, r', he, h44, h58, h => by
    have hsep : utf8 [':', ' '] = [58, 32] := by decide
    simp only [Items.texts, commas_after, hsep, List.append_assoc, List.cons_append, List.nil_append] at h
    obtain ⟨e1, e2⟩ := Val.unique ht hi v w _ _ (ends_cons (by decide)) (ends_cons (by decide)) h
    simp only [List.cons.injEq, true_and] at e2
    obtain ⟨e3, e4⟩ := Val.unique ht hi v' w' _ _ (after_ends _ he r) (after_ends _ he r') e2
    obtain ⟨e5, e6⟩ := Items.unique ht hi i j e r r' he h44 h58 (after_unique h44 e4).2
    exact ⟨by rw [e1, e3, e5], e6⟩
end

theorem texts_elems (t : L → GoStr) (vs : List (Val L)) : (Items.ofElems vs).texts t = vs.map (Val.text t) := by
  induction vs with
  | nil => simp only [Items.ofElems, Items.texts, List.map_nil]
  | cons v vs ih => simp only [Items.ofElems, Items.texts, List.map_cons, ih]

theorem texts_entries (t : L → GoStr) (es : List (Val L × Val L)) :
    (Items.ofEntries es).texts t = es.map fun e => e.1.text t ++ utf8 [':', ' '] ++ e.2.text t := by
  induction es with
  | nil => simp only [Items.ofEntries, Items.texts, List.map_nil]
  | cons e es ih => obtain ⟨k, v⟩ := e; simp only [Items.ofEntries, Items.texts, List.map_cons, ih]

theorem ofElems_inj {vs ws : List (Val L)} (h : Items.ofElems vs = Items.ofElems ws) : vs = ws := by
  induction vs generalizing ws with
  | nil => cases ws with
    | nil => rfl
    | cons w ws => simp [Items.ofElems] at h
  | cons v vs ih => cases ws with
    | nil => simp [Items.ofElems] at h
    | cons w ws =>
      simp only [Items.ofElems, Items.elem.injEq] at h
      rw [h.1, ih h.2]

theorem ofEntries_inj {vs ws : List (Val L × Val L)} (h : Items.ofEntries vs = Items.ofEntries ws) : vs = ws := by
  induction vs generalizing ws with
  | nil => cases ws with
    | nil => rfl
    | cons w ws => simp [Items.ofEntries] at h
  | cons v vs ih => cases ws with
    | nil => simp [Items.ofEntries] at h
    | cons w ws =>
      simp only [Items.ofEntries, Items.entry.injEq] at h
      rw [ih h.2.2, Prod.ext h.1 h.2.1]

theorem shown_elems {σ α : Type} (t : L → GoStr) (k : Kind) (rep : α → Val L) (xs : List α) :
    shown (σ := σ) k.name k.left k.right (xs.map fun e => pure ((rep e).text t)) =
      pure ((Val.node k (Items.ofElems (xs.map rep))).text t) := by
  have := shown_pure (σ := σ) k.name k.left k.right (xs.map fun e => (rep e).text t)
  rw [List.map_map] at this
  simp only [Val.text, texts_elems, List.map_map]
  exact this

theorem shown_entries {σ κ ν : Type} (t : L → GoStr) (k : Kind) (repK : κ → Val L) (repV : ν → Val L) (xs : List (κ × ν)) :
    shown (σ := σ) k.name k.left k.right (xs.map fun e => entry (pure ((repK e.1).text t)) (pure ((repV e.2).text t))) =
      pure ((Val.node k (Items.ofEntries (xs.map fun e => (repK e.1, repV e.2)))).text t) := by
  have := shown_pure (σ := σ) k.name k.left k.right (xs.map fun e => (repK e.1).text t ++ utf8 [':', ' '] ++ (repV e.2).text t)
  rw [List.map_map] at this
  simp only [Val.text, texts_entries, List.map_map, entry, pure_bind]
  exact this

/-- The values without parts: integers, Bools and None. -/
inductive Leaf where
  | int (i : Int)
  | bool (b : Bool)
  | none
  deriving DecidableEq, Repr

/-- Their texts: ToString, and "None". -/
def Leaf.text : Leaf → GoStr
  | int i => Dec.formatInt i
  | bool b => boolToString b
  | none => utf8 ['N', 'o', 'n', 'e']
end Gost.Shown

namespace Gost
open Spec Utf8 Shown

variable {σ α L : Type}

/-- **C163**, reading.  Two values made of containers, Somes and Oks, nested in each other, with the same text are equal: the same kinds of
containers with the same elements in the same order.  The texts of the parts that are not containers are to be different from each other,
and without commas, colons and brackets. -/
theorem C163_unique {t : L → GoStr} (ht : ∀ l, Plain (t l)) (hi : ∀ l l', t l = t l' → l = l') {v w : Val L} (h : v.text t = w.text t) :
    v = w :=
  (Val.unique ht hi v w [] [] ends_nil ends_nil (by rw [h])).1

/-- **C163**, the parts: the integers, Bools and None have such texts. -/
theorem C163_leaves : (∀ l, Plain (Leaf.text l)) ∧ ∀ l l', Leaf.text l = Leaf.text l' → l = l' := by
  have hdig : ∀ (n : Nat), ∀ b ∈ Dec.formatNat n, special b = false := by
    intro n b hb
    have := Dec.formatNat_digits n b hb
    simp only [special, List.contains_eq_mem, List.mem_cons, List.not_mem_nil, or_false, decide_eq_false_iff_not]
    rintro (rfl | rfl | rfl | rfl | rfl | rfl | rfl | rfl) <;> revert this <;> decide
  have hint : ∀ i : Int, ∃ b s, Dec.formatInt i = b :: s ∧ (48 ≤ b.toNat ∧ b.toNat ≤ 57 ∨ b = 45) := by
    intro i
    unfold Dec.formatInt
    by_cases h : i < 0
    · rw [if_pos h]; exact ⟨45, _, rfl, .inr rfl⟩
    · rw [if_neg h]
      cases hn : Dec.formatNat i.natAbs with
      | nil => exact absurd hn (Dec.formatNat_ne_nil _)
      | cons b s => exact ⟨b, s, rfl, .inl (Dec.formatNat_digits i.natAbs b (by rw [hn]; simp))⟩
  have hinj : ∀ i j : Int, Dec.formatInt i = Dec.formatInt j → i = j := by
    intro i j h
    have := congrArg Dec.parseInt h
    rw [Dec.parseInt_formatInt, Dec.parseInt_formatInt] at this
    exact Option.some.inj this
  have hne : ∀ (i : Int) (c : UInt8) (x : GoStr), 57 < c.toNat → Dec.formatInt i ≠ c :: x := by
    intro i c x hc h
    obtain ⟨b, s, e, hb⟩ := hint i
    rw [e] at h
    obtain ⟨rfl, _⟩ := List.cons.inj h
    rcases hb with hb | rfl
    · omega
    · revert hc; decide
  refine ⟨fun l => ?_, fun l l' h => ?_⟩
  · cases l with
    | int i =>
      refine ⟨(formatInt_noComma i).1, fun b hb => ?_⟩
      simp only [Leaf.text, Dec.formatInt] at hb
      by_cases h : i < 0
      · rw [if_pos h] at hb
        rcases List.mem_cons.1 hb with rfl | hb
        · decide
        · exact hdig _ b hb
      · rw [if_neg h] at hb
        exact hdig _ b hb
    | bool b => cases b <;> exact ⟨by decide, by decide⟩
    | none => exact ⟨by decide, by decide⟩
  · have hn : utf8 ['N', 'o', 'n', 'e'] = [78, 111, 110, 101] := by decide
    cases l with
    | int i =>
      cases l' with
      | int j => rw [hinj i j h]
      | bool b => cases b <;> exact absurd h (hne i _ _ (by decide))
      | none => simp only [Leaf.text, hn] at h; exact absurd h (hne i _ _ (by decide))
    | bool b =>
      cases l' with
      | int j => cases b <;> exact absurd h.symm (hne j _ _ (by decide))
      | bool b' => revert h; cases b <;> cases b' <;> decide
      | none => revert h; cases b <;> decide
    | none =>
      cases l' with
      | int j => simp only [Leaf.text, hn] at h; exact absurd h.symm (hne j _ _ (by decide))
      | bool b => revert h; cases b <;> decide
      | none => rfl

/-- **C163**, sequences.  If Display of the elements gives the texts of nested values, Display of a Vec, VecDeque or LinkedList of them gives
the text of the container with these elements. -/
theorem C163_sequences [Inhabited α] (t : L → GoStr) (rep : α → Val L) :
    (∀ v : Vec α, v.display (σ := σ) (fun e => displayMethod (pure ((rep e).text t))) =
      pure ((Val.node .vec (Items.ofElems (v.data.map rep))).text t)) ∧
    (∀ d : VecDeque α, d.Inv → d.display (σ := σ) (fun e => displayMethod (pure ((rep e).text t))) =
      pure ((Val.node .deque (Items.ofElems (d.toList.map rep))).text t)) ∧
    (∀ (s : LProg α) (xss : List (List α)) (k : Nat) (l : LList) (xs : List α), s.Holds xss → s.vars[k]? = some l → xss[k]? = some xs →
      xs.length < 2 ^ 63 → l.display (σ := σ) (fun e => displayMethod (pure ((rep e).text t))) s.heap =
        pure (some ((Val.node .list (Items.ofElems (xs.map rep))).text t))) := by
  refine ⟨fun v => ?_, fun d hd => ?_, fun s xss k l xs hs hl hx hn => ?_⟩
  · rw [(C107_vec_display (fun e => pure ((rep e).text t)) v).1]
    exact shown_elems t .vec rep v.data
  · rw [(C107_deque_display (fun e => pure ((rep e).text t)) d hd).1]
    exact shown_elems t .deque rep d.toList
  · rw [(C107_list_display (fun e => pure ((rep e).text t)) s xss hs k l xs hl hx hn).1]
    have := shown_elems (σ := σ) t .list rep xs
    simp only [Kind.name, Kind.left, Kind.right] at this
    rw [this, pure_bind]

/-- **C163**, Option and Result: likewise, for element types that are not interface types. -/
theorem C163_options {ε : Type} (t : L → GoStr) (rep : α → Val L) (text : ε → Eff σ GoStr) (v : α) :
    (Opt.some v).display (σ := σ) false (fun e => displayMethod (pure ((rep e).text t))) =
      pure ((Val.node .some (Items.ofElems [rep v])).text t) ∧
    (Opt.none : Opt α).display (σ := σ) false (fun e => displayMethod (pure ((rep e).text t))) =
      pure ((Val.leaf Leaf.none).text Leaf.text) ∧
    (Res.mkOk v : Res ε α).display (σ := σ) false (fun e => displayMethod (pure ((rep e).text t))) text =
      pure ((Val.node .ok (Items.ofElems [rep v])).text t) := by
  obtain ⟨h1, h2, -⟩ := C109_display_partial (σ := σ) (ε := Unit) (fun e => pure ((rep e).text t)) (fun _ => pure []) v ()
  refine ⟨?_, ?_, ?_⟩
  · rw [h2]; simp only [pure_bind, Val.text, Items.ofElems, Items.texts, commas]; rfl
  · rw [h1]; simp only [Val.text]; rfl
  · simp only [Res.display, Res.mkOk, Val.text, Items.ofElems, Items.texts, commas, displayMethod]
    rfl

section hash
variable {κ ν : Type} [GoKey κ] [LawfulGoKey κ]

/-- **C163**, maps and sets.  Display of a HashMap gives the text of the entries in some order; the same for a HashSet. -/
theorem C163_hash (t : L → GoStr) (repK : κ → Val L) (repV : ν → Val L) :
    (∀ (h : MapHeap κ ν) (m : HMap) (f : FMap κ ν) (ord : List (κ × ν)), m.Rep h f → m.Ranges h ord → ∃ l, Enumerates l f ∧
      HMap.display (σ := σ) (fun k => displayMethod (pure ((repK k).text t))) (fun v => displayMethod (pure ((repV v).text t))) ord =
        pure ((Val.node .hashMap (Items.ofEntries (l.map fun e => (repK e.1, repV e.2)))).text t)) ∧
    (∀ (h : SetHeap κ) (s : HSet) (p : FSet κ) (ord : List (κ × Unit)), s.Rep h p → s.hashMap.Ranges h ord → ∃ l, Enumerates l p.toMap ∧
      HSet.display (σ := σ) (fun k => displayMethod (pure ((repK k).text t))) ord =
        pure ((Val.node .hashSet (Items.ofElems (l.map fun e => repK e.1))).text t)) := by
  refine ⟨fun h m f ord hm ho => ?_, fun h s p ord hs ho => ?_⟩
  · obtain ⟨⟨l, hl, e⟩, -⟩ := C108_map_display (σ := σ) (fun k => pure ((repK k).text t)) (fun v => pure ((repV v).text t)) h m f hm ord ho
    exact ⟨l, hl, by rw [e]; exact shown_entries t .hashMap repK repV l⟩
  · obtain ⟨⟨l, hl, e⟩, -⟩ := C108_set_display (σ := σ) (fun k => pure ((repK k).text t)) h s p hs ord ho
    refine ⟨l, hl, ?_⟩
    rw [e]
    have := shown_elems (σ := σ) t .hashSet repK (l.map (·.1))
    rw [List.map_map, List.map_map] at this
    exact this

theorem Spec.Enumerates.unique {l : List (κ × ν)} {f f' : FMap κ ν} (h : Enumerates l f) (h' : Enumerates l f') : f = f' := by
  obtain ⟨g, n⟩ := f
  obtain ⟨g', n'⟩ := f'
  have hs : n = n' := h.size.symm.trans h'.size
  have hg : g = g' := by
    funext k
    have : ∀ v, g k = some v ↔ g' k = some v := fun v => (h.entries k v).trans (h'.entries k v).symm
    cases hk : g k with
    | none =>
      cases hk' : g' k with
      | none => rfl
      | some v => rw [(this v).2 hk'] at hk; cases hk
    | some v => exact ((this v).1 hk).symm
  rw [hs, hg]

/-- **C163**, HashMap.  Two HashMaps that display the same, each in whatever order Go iterates, have the same entries. -/
theorem C163_hashMap {t : L → GoStr} (ht : ∀ l, Plain (t l)) (hi : ∀ l l', t l = t l' → l = l') {repK : κ → Val L} {repV : ν → Val L}
    (hK : ∀ a b, repK a = repK b → a = b) (hV : ∀ a b, repV a = repV b → a = b) {h h' : MapHeap κ ν} {m m' : HMap} {f f' : FMap κ ν}
    {ord ord' : List (κ × ν)} (hm : m.Rep h f) (ho : m.Ranges h ord) (hm' : m'.Rep h' f') (ho' : m'.Ranges h' ord') (s : σ)
    (hd : HMap.display (fun k => displayMethod (pure ((repK k).text t))) (fun v => displayMethod (pure ((repV v).text t))) ord s =
      HMap.display (fun k => displayMethod (pure ((repK k).text t))) (fun v => displayMethod (pure ((repV v).text t))) ord' s) : f = f' := by
  obtain ⟨l, hl, e⟩ := (C163_hash (σ := σ) t repK repV).1 h m f ord hm ho
  obtain ⟨l', hl', e'⟩ := (C163_hash (σ := σ) t repK repV).1 h' m' f' ord' hm' ho'
  rw [e, e'] at hd
  simp only [Eff.pure_run, Prod.mk.injEq, Except.ok.injEq, and_true] at hd
  have h1 := C163_unique ht hi hd
  simp only [Val.node.injEq, true_and] at h1
  have h2 := ofEntries_inj h1
  have : l = l' := (List.map_inj_right fun a b hab => Prod.ext (hK _ _ (congrArg Prod.fst hab)) (hV _ _ (congrArg Prod.snd hab))).1 h2
  subst this
  exact hl.unique hl'
end hash

/-- **C163**, ordered maps and sets.  Display of a BTreeMap, and of a BTreeSet that is not empty, gives the text of the entries in order. -/
theorem C163_trees_partial {κ ν : Type} {cmp : κ → κ → Ordering} (hc : LawfulCmp cmp) (g : Growth) (t : L → GoStr) (repK : κ → Val L)
    (repV : ν → Val L) :
    (∀ (h : BStore κ ν) (m : BMap) (l : List (κ × ν)), BMap.Has cmp h m l →
      m.display (σ := σ) cmp g (fun k => displayMethod (pure ((repK k).text t))) (fun v => displayMethod (pure ((repV v).text t))) h =
        pure ((Val.node .treeMap (Items.ofEntries (l.map fun e => (repK e.1, repV e.2)))).text t)) ∧
    (∀ (h : BSet.Store κ) (s : BSet) (l : List (κ × Unit)), BSet.Has cmp h s l → l ≠ [] →
      s.display (σ := σ) g (fun k => displayMethod (pure ((repK k).text t))) h =
        pure ((Val.node .treeSet (Items.ofElems (l.map fun e => repK e.1))).text t)) := by
  refine ⟨fun h m l hm => ?_, fun h s l hs hne => ?_⟩
  · rw [(C108_btree_map_display_partial hc g (fun k => pure ((repK k).text t)) (fun v => pure ((repV v).text t)) hm).2.2.1]
    exact shown_entries t .treeMap repK repV l
  · rw [(C108_btree_set_display_partial g (fun k => pure ((repK k).text t)) hs hne).2.1]
    have := shown_elems (σ := σ) t .treeSet repK (l.map (·.1))
    rw [List.map_map, List.map_map] at this
    exact this

/-- C163 fails for Strings, which are displayed as they are: different Vecs, HashMaps and Options of Strings have the same text. -/
theorem C163_strings_fails (s : σ) :
    (∃ v w : Vec GoStr, v.data ≠ w.data ∧
      v.display (fun e => displayMethod (pure e)) s = w.display (fun e => displayMethod (pure e)) s) ∧
    (∃ l l' : List (GoStr × GoStr), l.length ≠ l'.length ∧
      HMap.display (fun k => displayMethod (pure k)) (fun v => displayMethod (pure v)) l s =
        HMap.display (fun k => displayMethod (pure k)) (fun v => displayMethod (pure v)) l' s) ∧
    (∃ v w : Vec (Opt GoStr), v.data.length ≠ w.data.length ∧
      v.display (fun o => displayMethod (o.display false fun e => displayMethod (pure e))) s =
        w.display (fun o => displayMethod (o.display false fun e => displayMethod (pure e))) s) := by
  refine ⟨⟨⟨[], 0⟩, ⟨[[]], 1⟩, by decide, rfl⟩, ⟨[(utf8 ['a'], utf8 ['b', ',', ' ', 'c', ':', ' ', 'd'])],
    [(utf8 ['a'], utf8 ['b']), (utf8 ['c'], utf8 ['d'])], by decide, ?_⟩,
    ⟨[Opt.some (utf8 ['a', ')', ',', ' ', 'S', 'o', 'm', 'e', '(', 'b'])], 1⟩, ⟨[Opt.some (utf8 ['a']), Opt.some (utf8 ['b'])], 2⟩,
    by decide, ?_⟩
  · unfold HMap.display
    simp only [fieldsLoop_eq, fieldKV_eq, entry, List.map_cons, List.map_nil, showEach, pure_bind]
    rfl
  · simp only [Vec.display_eq, List.map_cons, List.map_nil, castToDisplay_method, showEach, Opt.display]
    rfl

/-- **C163**, an instance: the text of a Vec of Vecs of integers determines the integers and where they are. -/
theorem C163_table (v w : Vec (Vec Int)) (s : σ)
    (h : v.display (fun r => displayMethod (r.display fun i => displayMethod (pure (Dec.formatInt i)))) s =
      w.display (fun r => displayMethod (r.display fun i => displayMethod (pure (Dec.formatInt i)))) s) :
    v.data.map (·.data) = w.data.map (·.data) := by
  let row : Vec Int → Val Leaf := fun r => .node .vec (Items.ofElems (r.data.map fun i => .leaf (.int i)))
  have hr : ∀ r : Vec Int, r.display (σ := σ) (fun i => displayMethod (pure (Dec.formatInt i))) = pure ((row r).text Leaf.text) := by
    intro r
    have := (C163_sequences (σ := σ) Leaf.text (fun i : Int => Val.leaf (Leaf.int i))).1 r
    simp only [Val.text, Leaf.text] at this
    simp only [row, Val.text, this]
  have hv : ∀ v : Vec (Vec Int), v.display (σ := σ) (fun r => displayMethod (r.display fun i => displayMethod (pure (Dec.formatInt i)))) =
      pure ((Val.node .vec (Items.ofElems (v.data.map row))).text Leaf.text) := by
    intro v
    simp only [hr]
    have : Inhabited (Vec Int) := ⟨⟨[], 0⟩⟩
    exact (C163_sequences Leaf.text row).1 v
  rw [hv, hv] at h
  simp only [Eff.pure_run, Prod.mk.injEq, Except.ok.injEq, and_true] at h
  have h1 := C163_unique C163_leaves.1 C163_leaves.2 h
  simp only [Val.node.injEq, true_and] at h1
  have h2 := congrArg (List.map fun x : Val Leaf => match x with
    | .node _ is => is
    | .leaf _ => .nil) (ofElems_inj h1)
  simp only [List.map_map] at h2
  have h3 : (v.data.map (·.data)).map (fun r : List Int => Items.ofElems (r.map fun i => Val.leaf (Leaf.int i))) =
      (w.data.map (·.data)).map (fun r : List Int => Items.ofElems (r.map fun i => Val.leaf (Leaf.int i))) := by
    rw [List.map_map, List.map_map]; exact h2
  refine (List.map_inj_right fun a b hab => ?_).1 h3
  exact (List.map_inj_right fun i j hij => by simpa using hij).1 (ofElems_inj hab)

-- a HashMap of Options and Vecs, and its text
private def sampleVal : Val Leaf :=
  .node .hashMap (Items.ofEntries [(.leaf (.int (-3)), .node .vec (Items.ofElems [.node .some (Items.ofElems [.leaf (.bool true)]), .leaf .none])),
    (.leaf (.int 0), .node .vec .nil)])
example : sampleVal.text Leaf.text = utf8 "HashMap{-3: Vec[Some(true), None], 0: Vec[]}".toList := by decide +kernel
-- the parts matter: Vec[Vec[], 1] and Vec[Vec[1]]
example : (Val.node .vec (Items.ofElems [.node .vec .nil, .leaf (.int 1)])).text Leaf.text = utf8 "Vec[Vec[], 1]".toList ∧
    (Val.node .vec (Items.ofElems [.node .vec (Items.ofElems [.leaf (.int 1)])])).text Leaf.text = utf8 "Vec[Vec[1]]".toList := by
  decide +kernel
-- a map, and two orders in which Go may range over it
example : (⟨some 0⟩ : HMap).Rep ([[(1, 10), (2, 20)]] : MapHeap Int Int)
      ⟨fun k => if k = 1 then some 10 else if k = 2 then some 20 else none, 2⟩ ∧
    (⟨some 0⟩ : HMap).Ranges ([[(1, 10), (2, 20)]] : MapHeap Int Int) [(1, 10), (2, 20)] ∧
    (⟨some 0⟩ : HMap).Ranges ([[(1, 10), (2, 20)]] : MapHeap Int Int) [(2, 20), (1, 10)] := by
  refine ⟨⟨0, _, rfl, rfl, by simp [GoKey.eq], ?_, rfl⟩, List.Perm.refl _, List.Perm.swap _ _ _⟩
  intro k v
  simp only [GoKey.eq, List.mem_cons, List.not_mem_nil, or_false, exists_eq_or_imp, exists_eq_left, beq_iff_eq]
  split
  · next h => simp [h]
  · split
    · next h => simp [h]
    · next h1 h2 => simp [h1, h2]
-- a table, by the model
example : (⟨[⟨[1, -2], 2⟩, ⟨[], 0⟩], 2⟩ : Vec (Vec Int)).display (σ := Unit)
    (fun r => displayMethod (r.display fun i => displayMethod (pure (Dec.formatInt i)))) () = (.ok (utf8 "Vec[Vec[1, -2], Vec[]]".toList), ()) := by
  decide +kernel
end Gost
