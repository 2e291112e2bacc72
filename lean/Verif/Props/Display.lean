import Verif.Model.Display
import Verif.Props.Format
import Verif.Props.LinkedIter
import Verif.Props.HashSet
import Verif.Props.BTreeEq
import Verif.Props.BTreeSet
import Verif.Lemmas.VecDeque
import Verif.Lemmas.Decimal
/-
Properties C107-C111: displaying containers, Option, Result, Pair; Debug; assertion messages.
-/
set_option linter.unusedSectionVars false
namespace Gost
open Spec Utf8

variable {σ α : Type}

namespace Spec
/-- Display the elements one after the other, each once; `missing` is the panic for an element that cannot be
displayed. -/
def showEach (missing : Panic) : List (Option (Eff σ GoStr)) → Eff σ (List GoStr)
  | [] => pure []
  | none :: _ => Eff.panic missing
  | some d :: ds => do
    let s ← d
    let ss ← showEach missing ds
    pure (s :: ss)

/-- The texts with ", " between them. -/
def commas : List GoStr → GoStr
  | [] => []
  | [s] => s
  | s :: ss => s ++ utf8 [',', ' '] ++ commas ss

/-- The text of a container: its name and the displays of its elements, in order, in brackets. -/
def shown (name : List Char) (left right : Char) (ds : List (Eff σ GoStr)) : Eff σ GoStr := do
  let ss ← showEach .explicit (ds.map some)
  pure (utf8 (name ++ [left]) ++ commas ss ++ utf8 [right])

/-- The first part of the message of AssertEq (`eq`) and AssertNe. -/
def compared (eq : Bool) (a b : GoStr) : GoStr :=
  utf8 ['a', 's', 's', 'e', 'r', 't', 'i', 'o', 'n', ' ', 'f', 'a', 'i', 'l', 'e', 'd', ':', ' '] ++ a ++
    utf8 (if eq then [' ', '!', '=', ' '] else [' ', '=', '=', ' ']) ++ b

/-- The display of an entry of a map. -/
def entry (k v : Eff σ GoStr) : Eff σ GoStr := do
  let a ← k
  let b ← v
  pure (a ++ utf8 [':', ' '] ++ b)
end Spec

/-! ### Lemmas -/

theorem showEach_map (m₁ m₂ : Panic) (ds : List (Eff σ GoStr)) :
    showEach m₁ (ds.map some) = showEach m₂ (ds.map some) := by
  induction ds with
  | nil => rfl
  | cons d ds ih => simp only [List.map_cons, showEach, ih]

/-- The loops that append to a buffer, as functions of the list of displays. -/
def bufLoop (missing : Panic) : List (Fmt.Param σ) → GoStr → Eff σ GoStr
  | [], b => pure b
  | none :: _, _ => Eff.panic missing
  | some d :: ds, b => do
    let s ← d
    bufLoop missing ds (if ds ≠ [] then b ++ s ++ ascii [',', ' '] else b ++ s)

theorem bufLoop_eq (missing : Panic) (ds : List (Fmt.Param σ)) (b : GoStr) :
    bufLoop missing ds b = showEach missing ds >>= fun ss => pure (b ++ commas ss) := by
  induction ds generalizing b with
  | nil => simp [bufLoop, showEach, commas]
  | cons d ds ih =>
    cases d with
    | none => rfl
    | some d =>
      simp only [bufLoop, showEach, bind_assoc, pure_bind]
      congr 1; funext s
      cases ds with
      | nil => simp [bufLoop, showEach, commas]
      | cons d' ds =>
        rw [if_pos (by simp), ih]
        cases d' with
        | none => rfl
        | some d' =>
          simp only [showEach, bind_assoc, pure_bind]
          congr 1; funext s'
          congr 1; funext ss
          have : ascii [',', ' '] = utf8 [',', ' '] := by decide
          rw [this]
          simp [commas, List.append_assoc]

theorem showEach_missing (missing : Panic) (ds : List (Fmt.Param σ)) (h : none ∈ ds) (s : σ) :
    ∃ p s', showEach missing ds s = (.error p, s') := by
  induction ds generalizing s with
  | nil => cases h
  | cons d ds ih =>
    cases d with
    | none => exact ⟨_, _, rfl⟩
    | some d =>
      have h' : none ∈ ds := by
        rcases List.mem_cons.1 h with h | h
        · cases h
        · exact h
      simp only [showEach, Eff.bind_run]
      rcases d s with ⟨_ | x, s1⟩
      · exact ⟨_, _, rfl⟩
      · obtain ⟨p, s', e⟩ := ih h' s1
        simp only [e]
        exact ⟨_, _, rfl⟩

theorem error_bind {β γ : Type} {x : Eff σ β} {f : β → Eff σ γ} {s : σ} (h : ∃ p s', x s = (.error p, s')) :
    ∃ p s', (x >>= f) s = (.error p, s') := by
  obtain ⟨p, s', e⟩ := h
  exact ⟨p, s', by rw [Eff.bind_run, e]⟩

theorem castToDisplay_method (d : Eff σ GoStr) : castToDisplay (displayMethod d) = some d := rfl

/-- Without a Display method that returns String the value does not implement Display. -/
theorem castToDisplay_none {m : Option (Method σ)} (h : ∀ x, m = some x → x.ret ≠ .String) :
    castToDisplay m = none := by
  cases m with
  | none => rfl
  | some x => simp [castToDisplay, castTo, h x rfl]

/-! ### C107: sequences -/

theorem Vec.displayLoop_eq (disp : α → Option (Method σ)) (data : List α) (fuel i : Nat)
    (hf : data.length < i + fuel) (b : GoStr) :
    Vec.displayLoop disp data fuel i b = bufLoop .explicit ((data.drop i).map fun e => castToDisplay (disp e)) b := by
  induction fuel generalizing i b with
  | zero => rw [List.drop_of_length_le (by omega)]; rfl
  | succ fuel ih =>
    unfold Vec.displayLoop
    by_cases hi : i < data.length
    · rw [if_pos hi, index_lt hi, List.drop_eq_getElem_cons hi]
      simp only [Eff.lift_ok, Eff.pure_bind, List.map_cons]
      cases castToDisplay (disp data[i]) with
      | none => rfl
      | some d =>
        simp only [bufLoop]
        congr 1; funext s
        rw [ih (i + 1) (by omega)]
        congr 1
        by_cases hl : i = data.length - 1
        · rw [if_neg (by omega), if_neg]
          simp only [ne_eq, Decidable.not_not, List.map_eq_nil_iff, List.drop_eq_nil_iff]; omega
        · rw [if_pos hl, if_pos]
          simp only [ne_eq, List.map_eq_nil_iff, List.drop_eq_nil_iff]; omega
    · rw [if_neg hi, List.drop_of_length_le (by omega)]; rfl

theorem Vec.display_eq (disp : α → Option (Method σ)) (v : Vec α) :
    v.display disp = showEach .explicit (v.data.map fun e => castToDisplay (disp e)) >>= fun ss =>
      pure (utf8 ['V', 'e', 'c', '['] ++ commas ss ++ utf8 [']']) := by
  unfold Vec.display
  rw [Vec.displayLoop_eq _ _ _ _ (by omega), bufLoop_eq, List.drop_zero]
  simp only [bind_assoc, pure_bind]
  rfl

/-- C107: Display of a Vec whose elements have Display methods displays every element once, in order, and gives
"Vec[", the texts separated by ", ", and "]". -/
theorem C107_vec_display (d : α → Eff σ GoStr) (v : Vec α) :
    v.display (fun e => displayMethod (d e)) = shown ['V', 'e', 'c'] '[' ']' (v.data.map d) ∧
    v.debug (fun e => displayMethod (d e)) = v.display (fun e => displayMethod (d e)) := by
  refine ⟨?_, rfl⟩
  rw [Vec.display_eq]
  simp only [castToDisplay_method, shown, List.map_map]
  rfl

/-- C107: if an element has no Display method, Display of the Vec panics. -/
theorem C107_vec_missing (disp : α → Option (Method σ)) (v : Vec α) (e : α) (he : e ∈ v.data)
    (hm : ∀ x, disp e = some x → x.ret ≠ .String) (s : σ) : ∃ p s', v.display disp s = (.error p, s') := by
  rw [Vec.display_eq]
  exact error_bind (showEach_missing _ _ (List.mem_map.2 ⟨e, he, castToDisplay_none hm⟩) s)

theorem VecDeque.displayLoop_eq [Inhabited α] (disp : α → Option (Method σ)) (d : VecDeque α) (hd : d.Inv) (fuel i : Nat)
    (hf : d.len < i + fuel) (b : GoStr) :
    VecDeque.displayLoop disp d fuel i b =
      bufLoop .explicit ((d.toList.drop i).map fun e => castToDisplay (disp e)) b := by
  have hlen : d.toList.length = d.len := VecDeque.toList_length hd
  induction fuel generalizing i b with
  | zero => rw [List.drop_of_length_le (by omega)]; rfl
  | succ fuel ih =>
    unfold VecDeque.displayLoop
    by_cases hi : i < d.len
    · have hi' : i < d.toList.length := by omega
      rw [if_pos hi, VecDeque.get_eq hd, List.drop_eq_getElem_cons hi', List.getElem?_eq_getElem hi']
      simp only [Eff.lift_ok, Eff.pure_bind, List.map_cons, Opt.unwrap, deref_some]
      cases castToDisplay (disp d.toList[i]) with
      | none => rfl
      | some x =>
        simp only [bufLoop]
        congr 1; funext s
        rw [ih (i + 1) (by omega)]
        congr 1
        have hu : usizeSub d.len 1 = d.len - 1 := by
          have := hd.small; have := hd.len_le; unfold usizeSub; omega
        rw [hu]
        by_cases hl : i = d.len - 1
        · rw [if_neg (by omega), if_neg]
          simp only [ne_eq, Decidable.not_not, List.map_eq_nil_iff, List.drop_eq_nil_iff]; omega
        · rw [if_pos hl, if_pos]
          simp only [ne_eq, List.map_eq_nil_iff, List.drop_eq_nil_iff]; omega
    · rw [if_neg hi, List.drop_of_length_le (by omega)]; rfl

theorem VecDeque.display_eq [Inhabited α] (disp : α → Option (Method σ)) (v : VecDeque α) (hv : v.Inv) :
    v.display disp = showEach .explicit (v.toList.map fun e => castToDisplay (disp e)) >>= fun ss =>
      pure (utf8 ['V', 'e', 'c', 'D', 'e', 'q', 'u', 'e', '['] ++ commas ss ++ utf8 [']']) := by
  unfold VecDeque.display
  rw [VecDeque.displayLoop_eq _ _ hv _ _ (by omega), bufLoop_eq, List.drop_zero]
  simp only [bind_assoc, pure_bind]
  rfl

/-- C107: Display of a VecDeque, likewise, in logical order. -/
theorem C107_deque_display [Inhabited α] (d : α → Eff σ GoStr) (v : VecDeque α) (hv : v.Inv) :
    v.display (fun e => displayMethod (d e)) =
      shown ['V', 'e', 'c', 'D', 'e', 'q', 'u', 'e'] '[' ']' (v.toList.map d) ∧
    v.debug (fun e => displayMethod (d e)) = v.display (fun e => displayMethod (d e)) := by
  refine ⟨?_, rfl⟩
  rw [VecDeque.display_eq _ _ hv]
  simp only [castToDisplay_method, shown, List.map_map]
  rfl

/-- C107: if an element has no Display method, Display of the VecDeque panics. -/
theorem C107_deque_missing [Inhabited α] (disp : α → Option (Method σ)) (v : VecDeque α) (hv : v.Inv) (e : α)
    (he : e ∈ v.toList) (hm : ∀ x, disp e = some x → x.ret ≠ .String) (s : σ) :
    ∃ p s', v.display disp s = (.error p, s') := by
  rw [VecDeque.display_eq _ _ hv]
  exact error_bind (showEach_missing _ _ (List.mem_map.2 ⟨e, he, castToDisplay_none hm⟩) s)

theorem LList.displayLoop_eq (disp : α → Option (Method σ)) (h : LHeap α) (l : LList) (fuel : Nat)
    (it : Option Nat) (xs : List α) (r : LIter.Reads h it xs) (count : Nat) (hc : l.len = count + xs.length)
    (hs : l.len < 2 ^ 63) (hf : xs.length < fuel) (b : GoStr) :
    LList.displayLoop disp h l fuel it count b =
      bufLoop .explicit (xs.map fun e => castToDisplay (disp e)) b >>= fun b => pure (some b) := by
  induction fuel generalizing it xs count b with
  | zero => omega
  | succ fuel ih =>
    obtain ⟨it', e1, r'⟩ := C65_list_iter_next h it xs r
    unfold LList.displayLoop
    rw [e1]
    simp only [Eff.lift_ok, Eff.pure_bind]
    cases xs with
    | nil => rfl
    | cons x xs =>
      simp only [List.head?_cons, Opt.isNone, Bool.false_eq_true, if_false, Opt.unwrap, deref_some, Eff.lift_ok,
        Eff.pure_bind, List.map_cons]
      simp only [List.length_cons] at hc hf
      cases castToDisplay (disp x) with
      | none => rfl
      | some d =>
        simp only [bufLoop, bind_assoc]
        congr 1; funext s
        rw [ih it' xs r' (count + 1) (by omega) (by omega)]
        congr 2
        unfold intOfUSize
        rw [if_pos hs]
        cases xs with
        | nil =>
          simp only [List.length_nil] at hc
          rw [if_neg (by omega), if_neg (by simp)]
        | cons y ys =>
          simp only [List.length_cons] at hc
          rw [if_pos (by omega), if_pos (by simp)]

theorem LList.display_eq (disp : α → Option (Method σ)) (h : LHeap α) (l : LList) (xs : List α)
    (r : LIter.Reads h l.intoIter xs) (hc : l.len = xs.length) (hs : xs.length < 2 ^ 63) :
    l.display disp h = showEach .explicit (xs.map fun e => castToDisplay (disp e)) >>= fun ss =>
      pure (some (utf8 ['L', 'i', 'n', 'k', 'e', 'd', 'L', 'i', 's', 't', '['] ++ commas ss ++ utf8 [']'])) := by
  unfold LList.display
  rw [LList.displayLoop_eq disp h l _ _ xs r 0 (by omega) (by omega)
    (by have := r.length_le; unfold LIter.rounds; omega), bufLoop_eq]
  simp only [bind_assoc, pure_bind]
  rfl

/-- C107: Display of every LinkedList of a program returns, and gives "LinkedList[", the displays of its elements
in order separated by ", ", and "]"; each element is displayed once. -/
theorem C107_list_display (d : α → Eff σ GoStr) (s : LProg α) (xss : List (List α)) (hs : s.Holds xss) (k : Nat)
    (l : LList) (xs : List α) (hl : s.vars[k]? = some l) (hx : xss[k]? = some xs) (hn : xs.length < 2 ^ 63) :
    l.display (fun e => displayMethod (d e)) s.heap =
      (shown ['L', 'i', 'n', 'k', 'e', 'd', 'L', 'i', 's', 't'] '[' ']' (xs.map d) >>= fun t => pure (some t)) ∧
    l.debug (fun e => displayMethod (d e)) s.heap = l.display (fun e => displayMethod (d e)) s.heap := by
  refine ⟨?_, rfl⟩
  have hlen : l.len = xs.length := by
    obtain ⟨_, ids, hr, _⟩ := hs
    exact (hr k l xs hl hx).len
  rw [LList.display_eq _ _ _ xs (C65_list_iter_start s xss hs k l xs hl hx) hlen hn]
  simp only [castToDisplay_method, shown, List.map_map, bind_assoc, pure_bind]
  rfl

/-- C107: if an element has no Display method, Display of the LinkedList panics. -/
theorem C107_list_missing (disp : α → Option (Method σ)) (s : LProg α) (xss : List (List α)) (hs : s.Holds xss)
    (k : Nat) (l : LList) (xs : List α) (hl : s.vars[k]? = some l) (hx : xss[k]? = some xs)
    (hn : xs.length < 2 ^ 63) (e : α) (he : e ∈ xs) (hm : ∀ x, disp e = some x → x.ret ≠ .String) (t : σ) :
    ∃ p t', l.display disp s.heap t = (.error p, t') := by
  have hlen : l.len = xs.length := by
    obtain ⟨_, ids, hr, _⟩ := hs
    exact (hr k l xs hl hx).len
  rw [LList.display_eq _ _ _ xs (C65_list_iter_start s xss hs k l xs hl hx) hlen hn]
  exact error_bind (showEach_missing _ _ (List.mem_map.2 ⟨e, he, castToDisplay_none hm⟩) t)

/-! ### Different sequences have different texts -/

theorem commas_cons (s : GoStr) {ss : List GoStr} (h : ss ≠ []) : commas (s :: ss) = s ++ utf8 [',', ' '] ++ commas ss := by
  cases ss with
  | nil => exact absurd rfl h
  | cons a as => rfl

theorem noComma_split {a b x y : GoStr} (ha : (44 : UInt8) ∉ a) (hb : (44 : UInt8) ∉ b)
    (h : a ++ 44 :: x = b ++ 44 :: y) : a = b ∧ x = y := by
  induction a generalizing b with
  | nil =>
    cases b with
    | nil => simpa using h
    | cons c b =>
      simp only [List.nil_append, List.cons_append, List.cons.injEq] at h
      exact absurd (List.mem_cons.2 (Or.inl h.1)) hb
  | cons c a ih =>
    cases b with
    | nil =>
      simp only [List.nil_append, List.cons_append, List.cons.injEq] at h
      exact absurd (List.mem_cons.2 (Or.inl h.1.symm)) ha
    | cons c' b =>
      simp only [List.cons_append, List.cons.injEq] at h
      obtain ⟨e1, e2⟩ := ih (fun m => ha (List.mem_cons_of_mem _ m)) (fun m => hb (List.mem_cons_of_mem _ m)) h.2
      exact ⟨by rw [h.1, e1], e2⟩

theorem commas_injective {xs ys : List GoStr} (hx : ∀ s ∈ xs, s ≠ [] ∧ (44 : UInt8) ∉ s)
    (hy : ∀ s ∈ ys, s ≠ [] ∧ (44 : UInt8) ∉ s) (h : commas xs = commas ys) : xs = ys := by
  have hsep : utf8 [',', ' '] = [44, 32] := by decide
  have ne : ∀ (s : GoStr) (ss : List GoStr), s ≠ [] → commas (s :: ss) ≠ [] := by
    intro s ss hs
    cases ss with
    | nil => exact hs
    | cons a as => simp [commas, hs]
  induction xs generalizing ys with
  | nil =>
    cases ys with
    | nil => rfl
    | cons y ys => exact absurd h.symm (ne y ys (hy y (by simp)).1)
  | cons x xs ih =>
    cases ys with
    | nil => exact absurd h (ne x xs (hx x (by simp)).1)
    | cons y ys =>
      have hx0 := (hx x (by simp)).2
      have hy0 := (hy y (by simp)).2
      by_cases h1 : xs = []
      · by_cases h2 : ys = []
        · subst h1; subst h2; simpa [commas] using h
        · subst h1
          rw [commas_cons y h2, hsep] at h
          exact absurd (show (44 : UInt8) ∈ x by have : x = _ := h; rw [this]; simp) hx0
      · by_cases h2 : ys = []
        · subst h2
          rw [commas_cons x h1, hsep] at h
          exact absurd (show (44 : UInt8) ∈ y by have : _ = y := h; rw [← this]; simp) hy0
        · rw [commas_cons x h1, commas_cons y h2, hsep] at h
          simp only [List.append_assoc, List.cons_append, List.nil_append] at h
          obtain ⟨e1, e2⟩ := noComma_split hx0 hy0 h
          simp only [List.cons.injEq, true_and] at e2
          rw [e1, ih (fun s m => hx s (List.mem_cons_of_mem _ m)) (fun s m => hy s (List.mem_cons_of_mem _ m)) e2]

theorem showEach_pure (m : Panic) (ts : List GoStr) :
    showEach (σ := σ) m ((ts.map pure).map some) = pure ts := by
  induction ts with
  | nil => rfl
  | cons t ts ih => simp only [List.map_cons, showEach, ih, pure_bind]

theorem shown_pure (name : List Char) (l r : Char) (ts : List GoStr) :
    shown (σ := σ) name l r (ts.map pure) = pure (utf8 (name ++ [l]) ++ commas ts ++ utf8 [r]) := by
  simp only [shown, showEach_pure, pure_bind]

/-- C107: the texts of two vectors are equal only if the vectors are, when the elements have different texts
that are not empty and contain no comma. -/
theorem C107_vec_injective (t : α → GoStr) (ht : ∀ a b, t a = t b → a = b)
    (hc : ∀ a, t a ≠ [] ∧ (44 : UInt8) ∉ t a) (v w : Vec α) (s : σ)
    (h : v.display (fun e => displayMethod (pure (t e))) s = w.display (fun e => displayMethod (pure (t e))) s) :
    v.data = w.data := by
  have e : ∀ u : Vec α, u.display (σ := σ) (fun e => displayMethod (pure (t e))) =
      pure (utf8 ['V', 'e', 'c', '['] ++ commas (u.data.map t) ++ utf8 [']']) := by
    intro u
    rw [(C107_vec_display (fun e => pure (t e)) u).1]
    have := shown_pure (σ := σ) ['V', 'e', 'c'] '[' ']' (u.data.map t)
    rw [List.map_map] at this
    exact this
  rw [e v, e w] at h
  simp only [Eff.pure_run, Prod.mk.injEq, Except.ok.injEq, and_true, List.append_cancel_right_eq,
    List.append_cancel_left_eq] at h
  have := commas_injective (by
      intro x hx; obtain ⟨a, _, rfl⟩ := List.mem_map.1 hx; exact hc a) (by
      intro x hx; obtain ⟨a, _, rfl⟩ := List.mem_map.1 hx; exact hc a) h
  exact (List.map_inj_right ht).1 this

theorem formatInt_noComma (i : Int) : Dec.formatInt i ≠ [] ∧ (44 : UInt8) ∉ Dec.formatInt i := by
  have hd := Dec.formatNat_digits i.natAbs
  have hn := Dec.formatNat_ne_nil i.natAbs
  have h44 : (44 : UInt8) ∉ Dec.formatNat i.natAbs := fun h => by
    have := (hd _ h).1
    revert this; decide
  unfold Dec.formatInt
  by_cases h : i < 0
  · simp [h, h44]
  · simp [h, h44, hn]

-- the hypotheses hold of the integer types: two vectors of integers with the same text are equal
example (v w : Vec Int) (h : v.display (σ := Unit) (fun i => displayMethod (pure (Dec.formatInt i))) () =
    w.display (fun i => displayMethod (pure (Dec.formatInt i))) ()) : v.data = w.data :=
  C107_vec_injective Dec.formatInt (fun a b h => by
    have := congrArg Dec.parseInt h
    rw [Dec.parseInt_formatInt, Dec.parseInt_formatInt] at this
    exact Option.some.inj this) formatInt_noComma v w () h

/-- The text of a natural number below 10, for the examples. -/
def digitText (n : Nat) : GoStr := [UInt8.ofNat (48 + n)]
/-- Writes the element to a log, for the examples. -/
def logged (n : Nat) : Eff (List Nat) GoStr := fun s => (.ok (digitText n), s ++ [n])
/-- Only numbers below 5 have a Display method, for the examples. -/
def upTo5 (n : Nat) : Option (Method (List Nat)) := if n < 5 then displayMethod (logged n) else none

example : (⟨[1, 2, 3], 4⟩ : Vec Nat).display (fun n => displayMethod (logged n)) [] =
    (.ok (ascii ['V', 'e', 'c', '[', '1', ',', ' ', '2', ',', ' ', '3', ']']), [1, 2, 3]) := by decide +kernel
example : (⟨[1, 7, 3], 4⟩ : Vec Nat).display upTo5 [] = (.error .explicit, [1]) := by decide +kernel
example : (⟨[4, 5, 0, 3], 3, 3⟩ : VecDeque Nat).Inv := ⟨by decide, by decide, by decide, by decide⟩
example : (⟨[4, 5, 0, 3], 3, 3⟩ : VecDeque Nat).display (fun n => displayMethod (logged n)) [] =
    (.ok (ascii ['V', 'e', 'c', 'D', 'e', 'q', 'u', 'e', '[', '3', ',', ' ', '4', ',', ' ', '5', ']']), [3, 4, 5]) := by
  decide +kernel
example : (⟨some 0, some 1, 2⟩ : LList).display (fun n => displayMethod (logged n))
    [⟨1, some 1, none⟩, ⟨2, none, some 0⟩] [] =
    (.ok (some (ascii ['L', 'i', 'n', 'k', 'e', 'd', 'L', 'i', 's', 't', '[', '1', ',', ' ', '2', ']'])), [1, 2]) := by
  decide +kernel

/-! ### C108: maps and sets -/

theorem join_commas (ss : List GoStr) : Strings.join ss (ascii [',', ' ']) = commas ss := by
  have hsep : ascii [',', ' '] = utf8 [',', ' '] := by decide
  rw [hsep]
  induction ss with
  | nil => rfl
  | cons s ss ih =>
    cases ss with
    | nil => rfl
    | cons a as => simp only [Strings.join, commas, ih]

theorem fieldsLoop_eq {β : Type} (field : β → Eff σ GoStr) (ord : List β) (acc : List GoStr) :
    fieldsLoop field ord acc =
      showEach .explicit ((ord.map field).map some) >>= fun ss => pure (acc ++ ss) := by
  induction ord generalizing acc with
  | nil => simp [fieldsLoop, showEach]
  | cons e ord ih =>
    simp only [fieldsLoop, List.map_cons, showEach, bind_assoc, pure_bind, ih, List.append_assoc, List.cons_append,
      List.nil_append]

theorem fieldKV_eq {κ ν : Type} (dK : κ → Eff σ GoStr) (dV : ν → Eff σ GoStr) (k : κ) (v : ν) :
    fieldKV (fun k => displayMethod (dK k)) (fun v => displayMethod (dV v)) k v = entry (dK k) (dV v) := by
  have ht : ascii ['{', '}', ':', ' ', '{', '}'] = template [.hole, .text [':', ' '], .hole] := by decide
  unfold fieldKV
  rw [ht, C77_format _ (by
    intro p hp
    simp only [List.mem_cons, List.not_mem_nil, or_false] at hp
    rcases hp with rfl | rfl | rfl <;> simp [Piece.Ok])]
  simp only [castToDisplay_method, renderE, List.nil_append, entry]

theorem fieldK_eq {κ : Type} (dK : κ → Eff σ GoStr) (k : κ) :
    fieldK (fun k => displayMethod (dK k)) k = dK k := by
  have ht : ascii ['{', '}'] = template [.hole] := by decide
  unfold fieldK
  rw [ht, C77_format _ (by
    intro p hp
    simp only [List.mem_cons, List.not_mem_nil, or_false] at hp
    subst hp; exact trivial)]
  simp only [castToDisplay_method, renderE, List.nil_append, Eff.bind_pure]

section hash
variable {κ ν : Type} [GoKey κ] [LawfulGoKey κ]

/-- C108: Display of a HashMap with the entries `f`: whatever order Go iterates in, every entry is displayed
exactly once, as "key: value", with ", " in between, in "HashMap{" and "}". -/
theorem C108_map_display (dK : κ → Eff σ GoStr) (dV : ν → Eff σ GoStr) (h : MapHeap κ ν) (m : HMap) (f : FMap κ ν)
    (hm : m.Rep h f) (ord : List (κ × ν)) (ho : m.Ranges h ord) :
    (∃ l, Enumerates l f ∧
      HMap.display (fun k => displayMethod (dK k)) (fun v => displayMethod (dV v)) ord =
        shown ['H', 'a', 's', 'h', 'M', 'a', 'p'] '{' '}' (l.map fun e => entry (dK e.1) (dV e.2))) ∧
    HMap.debug (fun k => displayMethod (dK k)) (fun v => displayMethod (dV v)) ord =
      HMap.display (fun k => displayMethod (dK k)) (fun v => displayMethod (dV v)) ord := by
  obtain ⟨r, es, hd, hr, he⟩ := hm
  rw [HMap.Ranges, HMap.load_eq hd hr] at ho
  refine ⟨⟨ord, he.perm ho, ?_⟩, rfl⟩
  unfold HMap.display shown
  simp only [fieldsLoop_eq, fieldKV_eq, bind_assoc, pure_bind, List.nil_append, join_commas]
  rfl

/-- C108: Display of a HashSet, likewise. -/
theorem C108_set_display (dK : κ → Eff σ GoStr) (h : SetHeap κ) (s : HSet) (p : FSet κ) (hs : s.Rep h p)
    (ord : List (κ × Unit)) (ho : s.hashMap.Ranges h ord) :
    (∃ l, Enumerates l p.toMap ∧
      HSet.display (fun k => displayMethod (dK k)) ord =
        shown ['H', 'a', 's', 'h', 'S', 'e', 't'] '{' '}' (l.map fun e => dK e.1)) ∧
    HSet.debug (fun k => displayMethod (dK k)) ord = HSet.display (fun k => displayMethod (dK k)) ord := by
  obtain ⟨r, es, hd, hr, he⟩ := hs
  rw [HMap.Ranges, HMap.load_eq hd hr] at ho
  refine ⟨⟨ord, he.perm ho, ?_⟩, rfl⟩
  unfold HSet.display shown
  simp only [fieldsLoop_eq, fieldK_eq, bind_assoc, pure_bind, List.nil_append, join_commas]
  rfl
end hash

section btree
open BTree
variable {κ ν : Type} {cmp : κ → κ → Ordering}

theorem BMap.keys_data (g : Growth) {h : BStore κ ν} {m : BMap} {l : List (κ × ν)} {fp : List Nat}
    (hg : Good cmp h m l fp) : ∃ w, BMap.keys g h m = .ok ⟨w, 0⟩ ∧ w.data = l.map (·.1) := by
  obtain ⟨root, len⟩ := m
  have ht := hg.tree
  simp only at ht
  cases root with
  | none => cases ht; exact ⟨_, rfl, rfl⟩
  | some a =>
    obtain ⟨_, ⟨w2, e2, d2⟩, _⟩ := ht.toVecs g
    exact ⟨w2, by simp [BMap.keys, e2], d2⟩

theorem BMap.displayLoop_eq (dK : κ → Eff σ GoStr) (dV : ν → Eff σ GoStr) (h : BStore κ ν)
    (m : BMap) (l : List (κ × ν)) (hget : ∀ i (hi : i < l.length), m.get cmp h l[i].1 = .ok (Opt.some l[i].2))
    (w : Vec κ) (hw : w.data = l.map (·.1)) (fuel i : Nat) (hf : l.length < i + fuel) (acc : List GoStr) :
    BMap.displayLoop cmp (fun k => displayMethod (dK k)) (fun v => displayMethod (dV v)) h m w fuel i acc =
      showEach .explicit (((l.drop i).map fun e => entry (dK e.1) (dV e.2)).map some) >>= fun ss =>
        pure (acc ++ ss) := by
  have hlen : w.len = l.length := by simp [Vec.len, hw]
  induction fuel generalizing i acc with
  | zero => rw [List.drop_of_length_le (by omega)]; simp [BMap.displayLoop, showEach]
  | succ fuel ih =>
    unfold BMap.displayLoop
    by_cases hi : i < l.length
    · rw [if_pos (by omega), List.drop_eq_getElem_cons hi]
      have hk : w.getUnchecked i = .ok l[i].1 := by
        unfold Vec.getUnchecked
        rw [index_lt (by rw [hw]; simpa using hi)]
        simp [hw]
      simp only [hk, hget i hi, Eff.lift_ok, Eff.pure_bind, Opt.isNone, Opt.some, Bool.false_eq_true, if_false,
        Opt.unwrap, deref_some, fieldKV_eq, List.map_cons, showEach, bind_assoc]
      congr 1; funext s
      rw [ih (i + 1) (by omega)]
      simp only [List.append_assoc, List.cons_append, List.nil_append]
    · rw [if_neg (by omega), List.drop_of_length_le (by omega)]; simp [showEach]

theorem lookup_self (hc : LawfulCmp cmp) {l : List (κ × ν)} (ha : Ascending cmp l) (i : Nat) (hi : i < l.length) :
    OMap.lookup cmp l l[i].1 = some l[i].2 :=
  OMap.lookup_getElem hc ha (List.getElem?_eq_getElem hi) (hc.refl _)

/-- C108, in part: Display of a BTreeMap lists the entries in ascending order of the keys.  Missing: histories
that lose or double entries (C72, C74). -/
theorem C108_btree_map_display_partial (hc : LawfulCmp cmp) (g : Growth) (dK : κ → Eff σ GoStr) (dV : ν → Eff σ GoStr)
    {h : BStore κ ν} {m : BMap} {l : List (κ × ν)} (hm : BMap.Has cmp h m l) :
    Ascending cmp l ∧ (∀ k, m.get cmp h k = .ok ⟨OMap.lookup cmp l k⟩) ∧
    m.display cmp g (fun k => displayMethod (dK k)) (fun v => displayMethod (dV v)) h =
      shown ['B', 'T', 'r', 'e', 'e', 'M', 'a', 'p'] '{' '}' (l.map fun e => entry (dK e.1) (dV e.2)) ∧
    m.debug cmp g (fun k => displayMethod (dK k)) (fun v => displayMethod (dV v)) h =
      m.display cmp g (fun k => displayMethod (dK k)) (fun v => displayMethod (dV v)) h := by
  obtain ⟨fp, hg⟩ := hm
  refine ⟨hg.asc, hg.get hc, ?_, rfl⟩
  obtain ⟨w, ew, dw⟩ := BMap.keys_data g hg
  unfold BMap.display shown
  simp only [ew, Eff.lift_ok, Eff.pure_bind, HMap.collectToVec]
  rw [BMap.displayLoop_eq dK dV h m l (fun i hi => by rw [hg.get hc, lookup_self hc hg.asc i hi]; rfl) w dw _ _
    (by simp [Vec.len, dw])]
  simp only [List.drop_zero, bind_assoc, pure_bind, List.nil_append, join_commas]
  rfl

theorem BSet.displayLoop_eq (dK : κ → Eff σ GoStr) (w : Vec κ) (fuel i : Nat) (hf : w.len < i + fuel)
    (acc : List GoStr) :
    BSet.displayLoop (fun k => displayMethod (dK k)) w fuel i acc =
      showEach .explicit (((w.data.drop i).map dK).map some) >>= fun ss => pure (acc ++ ss) := by
  induction fuel generalizing i acc with
  | zero => rw [List.drop_of_length_le (by simp [Vec.len] at hf; omega)]; simp [BSet.displayLoop, showEach]
  | succ fuel ih =>
    unfold BSet.displayLoop
    by_cases hi : i < w.len
    · have hi' : i < w.data.length := hi
      rw [if_pos hi, List.drop_eq_getElem_cons hi']
      simp only [Vec.getUnchecked, index_lt hi', Eff.lift_ok, Eff.pure_bind, fieldK_eq, List.map_cons, showEach,
        bind_assoc]
      congr 1; funext s
      rw [ih (i + 1) (by omega)]
      simp only [List.append_assoc, List.cons_append, List.nil_append]
    · rw [if_neg hi, List.drop_of_length_le (by simp [Vec.len] at hi; omega)]; simp [showEach]

/-- C108, in part: Display of a BTreeSet that is not empty lists the elements in ascending order.  Missing: the
empty set (`C108_btree_set_fails`), and histories that lose elements (C76). -/
theorem C108_btree_set_display_partial (g : Growth) (dK : κ → Eff σ GoStr)
    {h : BSet.Store κ} {s : BSet} {l : List (κ × Unit)} (hs : BSet.Has cmp h s l) (hne : l ≠ []) :
    Ascending cmp l ∧
    s.display g (fun k => displayMethod (dK k)) h =
      shown ['B', 'T', 'r', 'e', 'e', 'S', 'e', 't'] '{' '}' (l.map fun e => dK e.1) ∧
    s.debug g (fun k => displayMethod (dK k)) h = s.display g (fun k => displayMethod (dK k)) h := by
  obtain ⟨fp, hg⟩ := hs
  refine ⟨hg.asc, ?_, rfl⟩
  have ht := hg.tree
  cases hr : s.treemap.root with
  | none => rw [hr] at ht; cases ht; exact absurd rfl hne
  | some a =>
    rw [hr] at ht
    obtain ⟨_, ⟨w, e, d⟩, _⟩ := ht.toVecs g
    unfold BSet.display shown
    simp only [BSet.intoIter, hr, addr, deref_some, Go.bind_ok, e, Eff.lift_ok, Eff.pure_bind, HMap.collectToVec]
    rw [BSet.displayLoop_eq dK w _ _ (by omega), d]
    simp only [List.drop_zero, bind_assoc, pure_bind, List.nil_append, join_commas, List.map_map]
    rfl

/-- C108 fails: Display of an empty BTreeSet panics. -/
theorem C108_btree_set_fails (g : Growth) (dK : κ → Option (Method σ)) {h : BSet.Store κ} {s : BSet}
    (hs : BSet.Has cmp h s []) (t : σ) : s.display g dK h t = (.error .nilDeref, t) := by
  have := (C76_empty_fails (cmp := cmp) g hs hs none 0).1
  unfold BSet.display
  rw [this]
  rfl

-- a map and a set with two entries, and an empty set
example : ∃ h a, BMap.Has (compare : Nat → Nat → Ordering) h a [(1, 3), (2, 4)] := by
  obtain ⟨h, a, _, ha, _⟩ := two_maps [.insert 2 4, .insert 1 3] [] (by decide) (by decide)
  exact ⟨h, a, ha⟩
example : ∃ h a b, BSet.Has (compare : Nat → Nat → Ordering) h a [(1, ()), (2, ())] ∧ BSet.Has compare h b [] :=
  two_sets [2, 1] [] (by decide) (by decide)
example : shown ['B', 'T', 'r', 'e', 'e', 'M', 'a', 'p'] '{' '}'
    ([(1, 3), (2, 4)].map fun e => entry (logged e.1) (logged e.2)) [] =
    (.ok (ascii ['B', 'T', 'r', 'e', 'e', 'M', 'a', 'p', '{', '1', ':', ' ', '3', ',', ' ', '2', ':', ' ', '4', '}']),
      [1, 3, 2, 4]) := by decide +kernel
example : HMap.display (fun n => displayMethod (logged n)) (fun n => displayMethod (logged n)) [(2, 5), (1, 3)] [] =
    (.ok (ascii ['H', 'a', 's', 'h', 'M', 'a', 'p', '{', '2', ':', ' ', '5', ',', ' ', '1', ':', ' ', '3', '}']),
      [2, 5, 1, 3]) := by decide +kernel
end btree

/-! ### C109: Option, Result, Pair, and values inside containers -/

/-- C109, in part: Option displays as "None" or "Some(...)", Result as "Ok(...)" or the text of the error, for
element types that have a Display method and are not interface types.  Missing: interface types
(`C109_interface_fails`), pairs (`C109_pair_fails`) and an Err of nil (`C109_nil_error_fails`). -/
theorem C109_display_partial {ε : Type} (d : α → Eff σ GoStr) (text : ε → Eff σ GoStr) (v : α) (e : ε) :
    (Opt.none : Opt α).display false (fun x => displayMethod (d x)) = pure (utf8 ['N', 'o', 'n', 'e']) ∧
    (Opt.some v).display false (fun x => displayMethod (d x)) =
      (d v >>= fun t => pure (utf8 ['S', 'o', 'm', 'e', '('] ++ t ++ utf8 [')'])) ∧
    (Res.mkOk v : Res ε α).display false (fun x => displayMethod (d x)) text =
      (d v >>= fun t => pure (utf8 ['O', 'k', '('] ++ t ++ utf8 [')'])) ∧
    (Res.mkErr (some e) : Res ε α).display false (fun x => displayMethod (d x)) text = text e ∧
    (∀ o : Opt α, o.debug false (fun x => displayMethod (d x)) = o.display false (fun x => displayMethod (d x))) ∧
    (∀ r : Res ε α, r.debug false (fun x => displayMethod (d x)) text =
      r.display false (fun x => displayMethod (d x)) text) :=
  ⟨rfl, rfl, rfl, rfl, fun _ => rfl, fun _ => rfl⟩

/-- C109, in part: a container, an Option or a Result, whose Display runs as `d`, is displayed by `d` wherever a
Display is required: as an element of a Vec, as a parameter of Format, inside an Option.  Missing: pairs. -/
theorem C109_nested_partial (d : α → Eff σ GoStr) (v : α) (vs : Vec α) :
    vs.display (fun x => displayMethod (d x)) = shown ['V', 'e', 'c'] '[' ']' (vs.data.map d) ∧
    Fmt.format (template [.hole]) [castToDisplay (displayMethod (d v))] = d v := by
  refine ⟨(C107_vec_display d vs).1, ?_⟩
  have := fieldK_eq d v
  unfold fieldK at this
  rwa [show ascii ['{', '}'] = template [.hole] by decide] at this

/-- C109 fails: a Pair has a Display method, but not one that counts.  A Vec of pairs that is not empty cannot be
displayed, nor can a Some or Ok of a pair, and Format panics at a placeholder for one. -/
theorem C109_pair_fails {κ ν ε : Type} (tK : κ → Option (Method σ)) (tV : ν → Option (Method σ))
    (vK : κ → Eff σ GoStr) (vV : ν → Eff σ GoStr) (text : ε → Eff σ GoStr) (p : Pair κ ν)
    (ps : List (Pair κ ν)) (cap : Nat) (s : σ) :
    (⟨p :: ps, cap⟩ : Vec (Pair κ ν)).display (Pair.method tK tV vK vV) s = (.error .explicit, s) ∧
    (Opt.some p).display false (Pair.method tK tV vK vV) s = (.error .explicit, s) ∧
    (Res.mkOk p : Res ε (Pair κ ν)).display false (Pair.method tK tV vK vV) text s = (.error .explicit, s) ∧
    Fmt.format (template [.hole]) [castToDisplay (p.method tK tV vK vV)] s = (.error .nilDeref, s) := by
  refine ⟨?_, rfl, rfl, ?_⟩
  · rw [Vec.display_eq]; rfl
  · rw [C77_format [.hole] (by intro p hp; simp only [List.mem_cons, List.not_mem_nil, or_false] at hp; subst hp; exact trivial)]
    rfl

/-- C109, in part: called directly, Display (and ToString and Debug) of a pair gives "Pair[", the ToString of the
components (their `%v` text if they have none), and "]". -/
theorem C109_pair_text_partial {κ ν : Type} (tK : κ → Eff σ GoStr) (tV : ν → Eff σ GoStr)
    (vK : κ → Eff σ GoStr) (vV : ν → Eff σ GoStr) (p : Pair κ ν) :
    p.toString (fun k => some ⟨.String, tK k⟩) (fun v => some ⟨.String, tV v⟩) vK vV =
      shown ['P', 'a', 'i', 'r'] '[' ']' [tK p.key, tV p.value] ∧
    p.toString (fun _ => none) (fun _ => none) vK vV =
      shown ['P', 'a', 'i', 'r'] '[' ']' [vK p.key, vV p.value] := by
  have key : ∀ a b : Eff σ GoStr, (a >>= fun key => b >>= fun value =>
      pure (ascii ['P', 'a', 'i', 'r', '['] ++ key ++ ascii [',', ' '] ++ value ++ ascii [']'])) =
      shown ['P', 'a', 'i', 'r'] '[' ']' [a, b] := by
    intro a b
    simp only [shown, List.map_cons, List.map_nil, showEach, bind_assoc, pure_bind, commas]
    rfl
  exact ⟨key _ _, key _ _⟩

/-- C109 fails: Some and Ok of an interface type cannot be displayed, even if the value has a Display method. -/
theorem C109_interface_fails {ε : Type} (d : α → Eff σ GoStr) (text : ε → Eff σ GoStr) (v : α) (s : σ) :
    (Opt.some v).display true (fun x => displayMethod (d x)) s = (.error .explicit, s) ∧
    (Res.mkOk v : Res ε α).display true (fun x => displayMethod (d x)) text s = (.error .explicit, s) ∧
    (⟨[v], 1⟩ : Vec α).display (fun x => displayMethod (d x)) = shown ['V', 'e', 'c'] '[' ']' [d v] :=
  ⟨rfl, rfl, (C107_vec_display d ⟨[v], 1⟩).1⟩

/-- C109 fails: Display of an Err made with a nil error panics. -/
theorem C109_nil_error_fails {ε : Type} (disp : α → Option (Method σ)) (text : ε → Eff σ GoStr) (b : Bool) (s : σ) :
    (Res.mkErr none : Res ε α).display b disp text s = (.error .nilDeref, s) := rfl

example : (Opt.some (⟨[1, 2], 2⟩ : Vec Nat)).display false
    (fun v => displayMethod (v.display fun n => displayMethod (logged n))) [] =
    (.ok (ascii ['S', 'o', 'm', 'e', '(', 'V', 'e', 'c', '[', '1', ',', ' ', '2', ']', ')']), [1, 2]) := by
  decide +kernel

/-! ### C110: Debug -/

/-- C110, in part: the text of Debug of the primitive types is the name and the ToString in parentheses.
Missing: being usable as a Debug, see `C110_debug_fails`. -/
theorem C110_debug_partial (name : List Char) (t : GoStr) (hn : ∀ c ∈ name, c.toNat < 128) :
    ∃ m, primDebug (σ := σ) (ascii name) t = some m ∧
      m.run = pure (utf8 name ++ utf8 ['('] ++ t ++ utf8 [')']) := by
  refine ⟨_, rfl, ?_⟩
  have : ascii name = utf8 name := by
    unfold ascii
    induction name with
    | nil => rfl
    | cons c cs ih =>
      have hc := hn c (by simp)
      rw [List.map_cons, ih fun c h => hn c (List.mem_cons_of_mem _ h)]
      have hv : c.val.toNat ≤ 0x7f := by have : c.toNat = c.val.toNat := rfl; omega
      simp only [utf8, List.flatMap_cons]
      congr 1
      simp only [String.utf8EncodeChar, hv, if_true]
      rfl
  rw [← this]
  rfl

/-- C110 fails: no value of a primitive type, container, Option or Result implements Debug, although they have
a method Debug. -/
theorem C110_debug_fails (name t : GoStr) (run : Eff σ GoStr) :
    castToDebug (primDebug (σ := σ) name t) = none ∧ castToDebug (debugMethod run) = none := ⟨rfl, rfl⟩

/-! ### C111: assertion messages -/

/-- C111: Panic panics with the message formatted with its arguments. -/
theorem C111_panic (ps : List Piece) (hp : ∀ p ∈ ps, p.Ok) (args : List (MsgArg σ)) :
    panicMessage (template ps) args = renderE ps (args.map MsgArg.param) [] := C77_format ps hp _

theorem renderE_noHoles (ps : List Piece) (hh : holes ps = 0) (xs ys : List (Fmt.Param σ)) (out : GoStr) :
    renderE ps xs out = renderE ps ys out := by
  induction ps generalizing out with
  | nil => rfl
  | cons p ps ih =>
    cases p with
    | hole => simp [holes] at hh
    | _ => exact ih (by simpa [holes] using hh) _

/-- C111, in part: a failing Assert panics with the message formatted with the arguments after it, if the
message has no placeholder; without a message, with "assertion failed"; a condition that holds does nothing.
Missing: messages with placeholders (`C111_assert_fails`). -/
theorem C111_assert_partial (ps : List Piece) (hp : ∀ p ∈ ps, p.Ok) (hh : holes ps = 0) (args : List (MsgArg σ)) :
    assertMessage false (.gostString (template ps) :: args) =
      (renderE ps (args.map MsgArg.param) [] >>= fun m => pure (some m)) ∧
    assertMessage (σ := σ) false [] = pure (some (utf8 ['a', 's', 's', 'e', 'r', 't', 'i', 'o', 'n', ' ', 'f', 'a',
      'i', 'l', 'e', 'd'])) ∧
    assertMessage true args = pure none := by
  refine ⟨?_, ?_, rfl⟩
  · simp only [assertMessage, Bool.not_false, if_true]
    rw [C77_format ps hp, renderE_noHoles ps hh _ (args.map MsgArg.param)]
  · rw [show assertMessage (σ := σ) false [] = (Fmt.format (template [.text ['a', 's', 's', 'e', 'r', 't', 'i', 'o',
      'n', ' ', 'f', 'a', 'i', 'l', 'e', 'd']]) [] >>= fun m => pure (some m)) from rfl, C77_format _ (by
        intro p hp
        simp only [List.mem_cons, List.not_mem_nil, or_false] at hp
        subst hp
        simp [Piece.Ok])]
    rfl

/-- C111 fails: the message of a failing Assert is itself its first argument: a message with one placeholder
is shown with the message in place of the argument. -/
theorem C111_assert_fails (a b : List Char) (ha : ∀ c ∈ a, c ≠ '{' ∧ c ≠ '}') (hb : ∀ c ∈ b, c ≠ '{' ∧ c ≠ '}')
    (d : GoStr) (hd : d ≠ template [.text a, .hole, .text b]) :
    assertMessage (σ := σ) false [.gostString (template [.text a, .hole, .text b]), .other (primDisplay d)] =
      pure (some (utf8 a ++ template [.text a, .hole, .text b] ++ utf8 b)) ∧
    utf8 a ++ template [.text a, .hole, .text b] ++ utf8 b ≠ utf8 a ++ d ++ utf8 b ∧
    panicMessage (σ := σ) (template [.text a, .hole, .text b]) [.other (primDisplay d)] =
      pure (utf8 a ++ d ++ utf8 b) := by
  have hp : ∀ p ∈ [Piece.text a, .hole, .text b], p.Ok := by
    intro p hp
    simp only [List.mem_cons, List.not_mem_nil, or_false] at hp
    rcases hp with rfl | rfl | rfl
    · exact ha
    · exact trivial
    · exact hb
  refine ⟨?_, ?_, ?_⟩
  · simp only [assertMessage, Bool.not_false, if_true]
    rw [C77_format _ hp]
    rfl
  · intro h
    simp only [List.append_cancel_right_eq, List.append_cancel_left_eq] at h
    exact hd h.symm
  · rw [C111_panic _ hp]
    rfl

/-- C111, in part: failing AssertEq and AssertNe panic with the displays of the two values, followed by the
message (a String or a Go string without placeholders) on a line of its own.  Missing: messages with
placeholders (`C111_assertEq_fails`). -/
theorem C111_assertEq_partial (eq : Bool) (d : α → Eff σ GoStr) (x y : α) (ps : List Piece) (hp : ∀ p ∈ ps, p.Ok)
    (hh : holes ps = 0) (args : List (MsgArg σ)) :
    assertCmpMessage (if eq then '!' else '=') (pure true) (fun v => displayMethod (d v)) x y [] =
      (d x >>= fun a => d y >>= fun b => pure (some (compared eq a b))) ∧
    (∀ first, first = .gostString (template ps) ∨ first = .goString (template ps) →
      assertCmpMessage (if eq then '!' else '=') (pure true) (fun v => displayMethod (d v)) x y (first :: args) =
        (d x >>= fun a => d y >>= fun b => renderE ps (args.map MsgArg.param) [] >>= fun m =>
          pure (some (compared eq a b ++ utf8 ['\n', '>', '>', '>', ' '] ++ m)))) ∧
    assertCmpMessage (if eq then '!' else '=') (pure false) (fun v => displayMethod (d v)) x y args = pure none := by
  have hfmt : ∀ ds, Fmt.format (σ := σ) (ascii ['a', 's', 's', 'e', 'r', 't', 'i', 'o', 'n', ' ', 'f', 'a', 'i', 'l',
      'e', 'd', ':', ' ', '{', '}', ' ', if eq then '!' else '=', '=', ' ', '{', '}']) ds =
      renderE [.text ['a', 's', 's', 'e', 'r', 't', 'i', 'o', 'n', ' ', 'f', 'a', 'i', 'l', 'e', 'd', ':', ' '], .hole,
        .text (if eq then [' ', '!', '=', ' '] else [' ', '=', '=', ' ']), .hole] ds [] := by
    intro ds
    rw [← C77_format _ (by
      intro p hp
      simp only [List.mem_cons, List.not_mem_nil, or_false] at hp
      rcases hp with rfl | rfl | rfl | rfl
      · simp [Piece.Ok]
      · exact trivial
      · cases eq <;> simp [Piece.Ok]
      · exact trivial)]
    congr 1
    cases eq <;> decide
  refine ⟨?_, ?_, rfl⟩
  · simp only [assertCmpMessage, pure_bind, if_true, hfmt, castToDisplay_method, renderE, bind_assoc, extraMessage,
      List.nil_append, compared]
  · intro first hf
    have hx : ∀ m, extraMessage m (first :: args) = (renderE ps (args.map MsgArg.param) [] >>= fun t =>
        pure (m ++ utf8 ['\n', '>', '>', '>', ' '] ++ t)) := by
      intro m
      rw [show utf8 ['\n', '>', '>', '>', ' '] = ascii ['\n', '>', '>', '>', ' '] by decide,
        renderE_noHoles ps hh _ ((first :: args).map MsgArg.param), ← C77_format ps hp]
      rcases hf with rfl | rfl <;> rfl
    simp only [assertCmpMessage, pure_bind, if_true, hfmt, castToDisplay_method, renderE, bind_assoc, hx,
      List.nil_append, compared]

/-- C111 fails: with a Go string as message, AssertEq and AssertNe panic with a nil dereference instead of the
message, if the message has a placeholder. -/
theorem C111_assertEq_fails (m : GoStr) (a : List Char) (ha : ∀ c ∈ a, c ≠ '{' ∧ c ≠ '}')
    (ps : List Piece) (hp : ∀ p ∈ ps, p.Ok) (args : List (MsgArg σ)) (s : σ) :
    extraMessage m (.goString (template (.text a :: .hole :: ps)) :: args) s = (.error .nilDeref, s) := by
  simp only [extraMessage]
  rw [C77_format _ (by
    intro p h
    simp only [List.mem_cons] at h
    rcases h with rfl | rfl | h
    · exact ha
    · exact trivial
    · exact hp p h)]
  rfl

example : assertMessage (σ := List Nat) false [.gostString (template [.text ['x', '='], .hole]),
    .other (displayMethod (logged 7))] [] = (.ok (some (ascii ['x', '=', 'x', '=', '{', '}'])), []) := by decide +kernel
example : assertCmpMessage (σ := List Nat) '!' (pure true) (fun n => displayMethod (logged n)) 1 2
    [.goString (template [.text ['n', 'o']])] [] =
    (.ok (some (ascii ['a', 's', 's', 'e', 'r', 't', 'i', 'o', 'n', ' ', 'f', 'a', 'i', 'l', 'e', 'd', ':', ' ', '1', ' ',
      '!', '=', ' ', '2', '\n', '>', '>', '>', ' ', 'n', 'o'])), [1, 2]) := by decide +kernel

/-- C111: Unimplemented, Unreachable and Todo panic with the first message, or with their own. -/
theorem C111_stubs (own m : GoStr) (ms : List GoStr) :
    stubMessage own [] = own ∧ stubMessage own (m :: ms) = m := ⟨rfl, rfl⟩
end Gost
