import Verif.Model.Io
import Verif.Model.Assign
import Verif.Lemmas.Decimal
import Verif.Props.Format
import Verif.Props.Text
/-
Properties C113 (Sleep), C114 (Stdin.ReadLine), C115 (Print, Println), C116 (Stdin.Lock), C117 (AsRef).
-/
namespace Gost
open Spec

/-! ### C113 Sleep -/
namespace Time
open Dec

theorem parseDigits_ge (s : GoStr) (x v : Nat) (h : parseDigits s x = some v) : x ≤ v := by
  induction s generalizing x with
  | nil => simp [parseDigits] at h; omega
  | cons b bs ih =>
    rw [parseDigits] at h
    cases hd : digitVal b with
    | none => rw [hd] at h; cases h
    | some d => rw [hd] at h; have := ih _ h; omega

/-- The digits of a number are read as that number, unless it exceeds 2^63. -/
theorem leadingInt_digits (s t : GoStr) (x v : Nat) (h : parseDigits s x = some v)
    (ht : ∀ b, t.head? = some b → digitVal b = none) :
    leadingInt (s ++ t) x = if v ≤ 2 ^ 63 ∨ s = [] then some (v, t) else none := by
  induction s generalizing x with
  | nil =>
    simp only [parseDigits, Option.some.injEq] at h
    subst h
    rw [if_pos (Or.inr rfl)]
    cases t with
    | nil => rfl
    | cons b bs => simp [leadingInt, ht b rfl]
  | cons b bs ih =>
    rw [parseDigits] at h
    cases hd : digitVal b with
    | none => rw [hd] at h; cases h
    | some d =>
      rw [hd] at h
      have hv := parseDigits_ge _ _ _ h
      rw [List.cons_append, leadingInt, hd]
      simp only []
      by_cases h1 : 2 ^ 63 / 10 < x
      · rw [if_pos h1, if_neg]; simp; omega
      · rw [if_neg h1]
        by_cases h2 : 2 ^ 63 < x * 10 + d
        · rw [if_pos h2, if_neg]; simp; omega
        · rw [if_neg h2, ih _ h]
          by_cases h3 : v ≤ 2 ^ 63
          · rw [if_pos (Or.inl h3), if_pos (Or.inl h3)]
          · have hb : bs ≠ [] := by
              rintro rfl
              simp only [parseDigits, Option.some.injEq] at h; omega
            rw [if_neg (by simp [h3, hb]), if_neg (by simp [h3])]

theorem leadingInt_formatNat (n : Nat) (t : GoStr) (ht : ∀ b, t.head? = some b → digitVal b = none) :
    leadingInt (formatNat n ++ t) 0 = if n ≤ 2 ^ 63 then some (n, t) else none := by
  have h : parseDigits (formatNat n) 0 = some n := by
    have := parseNat_numeral (formatNat_isNumeral n)
    revert this
    cases he : formatNat n with
    | nil => exact absurd he (formatNat_ne_nil n)
    | cons b bs => exact id
  rw [leadingInt_digits _ _ _ _ h ht]
  simp [formatNat_ne_nil n]

theorem formatNat_cons (n : Nat) : ∃ b bs, formatNat n = b :: bs ∧ (digitVal b).isSome = true := by
  cases he : formatNat n with
  | nil => exact absurd he (formatNat_ne_nil n)
  | cons b bs =>
    have := formatNat_digits n b (by simp [he])
    exact ⟨b, bs, rfl, by simp [digitVal, this]⟩

/-- One round of the loop: a number and its unit. -/
theorem parseLoop_round (fuel n unit d : Nat) (u t : GoStr) (hu : unitOf u = some unit) (hne : u ≠ [])
    (hb : ∀ b ∈ u, unitByte b = true) (ht : ∀ b, t.head? = some b → unitByte b = false) (h1 : 1 ≤ unit)
    (hd : d ≤ 2 ^ 63) :
    parseLoop (fuel + 1) (formatNat n ++ (u ++ t)) d =
      if d + n * unit ≤ 2 ^ 63 then parseLoop fuel t (d + n * unit) else none := by
  have hnu : n ≤ n * unit := Nat.le_mul_of_pos_right n h1
  have hlead := leadingInt_formatNat n (u ++ t) (by
    intro b h
    cases u with
    | nil => exact absurd rfl hne
    | cons c cs =>
      simp only [List.cons_append, List.head?_cons, Option.some.injEq] at h
      subst h
      have := hb c (by simp)
      unfold unitByte at this
      cases hx : digitVal c with
      | none => rfl
      | some _ => simp [hx] at this)
  have hlen : ¬ (u ++ t).length = (formatNat n ++ (u ++ t)).length := by
    have := List.length_pos_iff.2 (formatNat_ne_nil n)
    simp only [List.length_append]; omega
  have htake : (u ++ t).takeWhile unitByte = u := by
    rw [List.takeWhile_append_of_pos hb]
    cases t with
    | nil => simp
    | cons c cs => simp [ht c rfl]
  have hdrop : (u ++ t).dropWhile unitByte = t := by
    rw [List.dropWhile_append_of_pos hb]
    cases t with
    | nil => simp
    | cons c cs => simp [ht c rfl]
  rw [parseLoop, if_neg (by simp [formatNat_ne_nil n]), hlead]
  by_cases hn : n ≤ 2 ^ 63
  · rw [if_pos hn]
    simp only []
    rw [if_neg hlen, htake, hu]
    simp only []
    by_cases hv : 2 ^ 63 / unit < n
    · have : 2 ^ 63 < n * unit := (Nat.div_lt_iff_lt_mul h1).1 hv
      rw [if_pos hv, if_neg (by omega)]
    · rw [if_neg hv, hdrop]
      by_cases hs : 2 ^ 63 < d + n * unit
      · rw [if_pos hs, if_neg (by omega)]
      · rw [if_neg hs, if_pos (by omega)]
  · rw [if_neg hn, if_neg (by omega)]

/-- What ParseDuration makes of the string Sleep builds. -/
theorem parseDuration_sleep (a b : Nat) :
    parseDuration (formatNat a ++ [115] ++ (formatNat b ++ [110, 115])) =
      if a * 1000000000 + b < 2 ^ 63 then some (a * 1000000000 + b) else none := by
  obtain ⟨c, cs, hc, hdig⟩ := formatNat_cons b
  have hs : formatNat a ++ [115] ++ (formatNat b ++ [110, 115]) =
      formatNat a ++ ([115] ++ (formatNat b ++ ([110, 115] ++ []))) := by simp
  have hla := List.length_pos_iff.2 (formatNat_ne_nil a)
  rw [hs]
  generalize hf : formatNat a ++ ([115] ++ (formatNat b ++ ([110, 115] ++ []))) = s
  have hl : ∃ f, s.length = f + 2 := ⟨s.length - 2, by rw [← hf]; simp only [List.length_append, List.length_cons]; omega⟩
  have h0 : s ≠ [48] := by
    intro h
    have := congrArg List.length h
    rw [← hf] at this
    simp only [List.length_append, List.length_cons, List.length_nil] at this
    omega
  have h1 : s.isEmpty = false := by
    cases s with
    | nil => simp at hl
    | cons _ _ => rfl
  obtain ⟨f, hl⟩ := hl
  unfold parseDuration
  rw [if_neg h0, if_neg (by simp [h1]), hl, ← hf,
    parseLoop_round (f + 2) a 1000000000 0 [115] _ (by decide) (by simp) (by decide) (by
      intro x hx
      rw [hc] at hx
      simp only [List.cons_append, List.head?_cons, Option.some.injEq] at hx
      subst hx
      unfold unitByte
      cases hx : digitVal c with
      | none => rw [hx] at hdig; cases hdig
      | some _ => rfl) (by decide) (by decide)]
  by_cases ha : 0 + a * 1000000000 ≤ 2 ^ 63
  · rw [if_pos ha, parseLoop_round (f + 1) b 1 _ [110, 115] [] (by decide) (by simp) (by decide) (by simp) (by decide) ha]
    by_cases hb : 0 + a * 1000000000 + b * 1 ≤ 2 ^ 63
    · rw [if_pos hb]
      simp only [parseLoop, List.isEmpty_nil, if_true]
      by_cases hlt : a * 1000000000 + b < 2 ^ 63
      · rw [if_pos hlt, if_neg (by omega)]; congr 1; omega
      · rw [if_neg hlt, if_pos (by omega)]
    · rw [if_neg hb, if_neg (by omega)]
  · rw [if_neg ha, if_neg (by omega)]
end Time

/-- C113, in part: Sleep returns no earlier than the duration after the call.  Full property: for every duration.
Missing: durations of 2^63 nanoseconds (about 292 years) or more, where it panics. -/
theorem C113_sleep_partial (wake : Nat → Nat → Nat) (hw : ∀ t d, t + d ≤ wake t d) (now : Nat) (dur : Duration) :
    ((∃ t, sleep wake now dur = .ok t ∧ now + (dur.seconds.toNat * 1000000000 + dur.nanoseconds.toNat) ≤ t) ↔
      dur.seconds.toNat * 1000000000 + dur.nanoseconds.toNat < 2 ^ 63) ∧
    ((∃ e, sleep wake now dur = .error e) ↔
      2 ^ 63 ≤ dur.seconds.toNat * 1000000000 + dur.nanoseconds.toNat) := by
  unfold sleep
  simp only []
  rw [Time.parseDuration_sleep]
  by_cases h : dur.seconds.toNat * 1000000000 + dur.nanoseconds.toNat < 2 ^ 63
  · rw [if_pos h]
    exact ⟨⟨fun _ => h, fun _ => ⟨_, rfl, hw _ _⟩⟩, ⟨fun ⟨_, h'⟩ => (by cases h'), fun h' => (by omega)⟩⟩
  · rw [if_neg h]
    exact ⟨⟨fun ⟨_, h', _⟩ => (by cases h'), fun h' => absurd h' h⟩, ⟨fun _ => (by omega), fun _ => ⟨_, rfl⟩⟩⟩

/-- C113 fails: Sleep of 2^34 seconds or more panics. -/
theorem C113_sleep_fails (wake : Nat → Nat → Nat) (now : Nat) (dur : Duration) (h : 2 ^ 34 ≤ dur.seconds.toNat) :
    sleep wake now dur = .error .explicit := by
  unfold sleep
  simp only []
  rw [Time.parseDuration_sleep, if_neg (by omega)]

-- Sleep of 5 s 30 ns at time 7 when time.Sleep is late by 2 ns; the longest sleep; one nanosecond more
example : sleep (fun t d => t + d + 2) 7 ⟨5#64, 30#32⟩ = .ok 5000000039 := by decide +kernel
example : sleep (fun t d => t + d) 0 ⟨9223372036#64, 854775807#32⟩ = .ok (2 ^ 63 - 1) := by decide +kernel
example : sleep (fun t d => t + d) 0 ⟨9223372036#64, 854775808#32⟩ = .error .explicit := by decide +kernel

/-! ### C114 ReadLine -/
namespace Io
open Utf8

theorem encodeRune_ne_nil (r : Nat) : encodeRune r ≠ [] := by
  unfold encodeRune
  split
  · simp
  · split
    · simp
    · split
      · simp
      · split <;> simp

theorem encode_eq_nil {l : List Nat} (h : l.flatMap encodeRune = []) : l = [] := by
  cases l with
  | nil => rfl
  | cons r rs =>
    simp only [List.flatMap_cons, List.append_eq_nil_iff] at h
    exact absurd h.1 (encodeRune_ne_nil r)

/-- On a line, SkipSpace skips some of it, or all of it and the newline. -/
theorem skipSpace_line (line rest : List Nat) (hl : 10 ∉ line) :
    skipSpace (line ++ 10 :: rest) = .error rest ∧ (∀ r ∈ line, isSpace r = true) ∨
    ∃ pre r post, line = pre ++ r :: post ∧ (∀ r ∈ pre, isSpace r = true) ∧ isSpace r = false ∧
      skipSpace (line ++ 10 :: rest) = .ok (r :: post ++ 10 :: rest) := by
  induction line with
  | nil => left; exact ⟨by simp [skipSpace], by simp⟩
  | cons r line ih =>
    have hr : r ≠ 10 := fun h => hl (by simp [h])
    have hl' : 10 ∉ line := fun h => hl (by simp [h])
    have step : isSpace r = true → skipSpace (r :: line ++ 10 :: rest) = skipSpace (line ++ 10 :: rest) := by
      intro hs
      rw [List.cons_append, skipSpace]
      by_cases h1 : r = 13 ∧ (line ++ 10 :: rest).head? = some 10
      · rw [if_pos h1]
      · rw [if_neg h1, if_neg hr, if_pos hs]
    cases hs : isSpace r with
    | true =>
      rcases ih hl' with ⟨h1, h2⟩ | ⟨pre, x, post, h1, h2, h3, h4⟩
      · left
        refine ⟨by rw [step hs, h1], ?_⟩
        intro y hy
        rcases List.mem_cons.1 hy with rfl | hy
        · exact hs
        · exact h2 y hy
      · right
        refine ⟨r :: pre, x, post, by rw [h1]; rfl, ?_, h3, by rw [step hs, h4]⟩
        intro y hy
        rcases List.mem_cons.1 hy with rfl | hy
        · exact hs
        · exact h2 y hy
    | false =>
      right
      refine ⟨[], r, line, rfl, by simp, hs, ?_⟩
      have : r ≠ 13 := by rintro rfl; simp [isSpace] at hs
      rw [List.cons_append, skipSpace, if_neg (by simp [this]), if_neg hr, if_neg (by simp [hs])]

theorem white_iff (r : Nat) : isSpace r = false ↔ r ∉ whiteSpace := by
  rw [← Bool.not_eq_true]
  apply not_congr
  simp only [isSpace, whiteSpace, decide_eq_true_eq, List.mem_cons, List.not_mem_nil, or_false]
  omega

theorem isSpace_newline : isSpace 10 = true := by decide

/-- The words of a line. -/
theorem scanln_line (line rest : List Nat) (hl : 10 ∉ line) :
    ∃ pre tok post, line = pre ++ tok ++ post ∧ (scanln (line ++ 10 :: rest)).1 = tok ∧
      (∀ r ∈ tok, isSpace r = false) := by
  rcases skipSpace_line line rest hl with ⟨h, -⟩ | ⟨pre, r, post, h1, h2, h3, h4⟩
  · exact ⟨line, [], [], by simp, by simp [scanln, h], by simp⟩
  · refine ⟨pre, (r :: post).takeWhile (!isSpace ·), (r :: post).dropWhile (!isSpace ·), ?_, ?_, ?_⟩
    · rw [List.append_assoc, List.takeWhile_append_dropWhile, h1]
    · unfold scanln
      rw [h4]
      simp only [List.cons_append, List.takeWhile_cons, h3, Bool.not_false, if_true]
      congr 1
      rw [List.takeWhile_append]
      split
      · rename_i h
        have : post.takeWhile (!isSpace ·) = post := List.IsPrefix.eq_of_length (List.takeWhile_prefix _) h
        simp [isSpace_newline, this]
      · rfl
    · intro x hx
      have := List.all_takeWhile (l := r :: post) (p := (!isSpace ·))
      rw [List.all_eq_true] at this
      simpa using this x hx

/-- A line without spaces is read as it is. -/
theorem scanln_word (line rest : List Nat) (hs : ∀ r ∈ line, isSpace r = false) :
    scanln (line ++ 10 :: rest) = (line, rest) := by
  cases line with
  | nil => simp [scanln, skipSpace]
  | cons r line =>
    have hr := hs r (by simp)
    have h10 : r ≠ 10 := by rintro rfl; exact absurd hr (by decide)
    have h13 : r ≠ 13 := by rintro rfl; exact absurd hr (by decide)
    have hp : ∀ x ∈ r :: line, (!isSpace x) = true := fun x hx => by simp [hs x hx]
    have e : skipSpace (r :: line ++ 10 :: rest) = .ok (r :: (line ++ 10 :: rest)) := by
      rw [List.cons_append, skipSpace, if_neg (by simp [h13]), if_neg h10, if_neg (by simp [hr])]
    unfold scanln
    rw [e]
    simp only []
    rw [← List.cons_append, List.takeWhile_append_of_pos hp, List.dropWhile_append_of_pos hp]
    simp [isSpace_newline, endOfLine]

end Io

open Io in
/-- C114, in part.  Full property: ReadLine appends the next line of input to the buffer and leaves the input
after that line.  It does so exactly if the buffer is empty and the line contains no white space; otherwise the
buffer is overwritten, or only a word of the line arrives in it. -/
theorem C114_readLine_partial (buffer : GoStr) (line rest : List Nat) (hl : 10 ∉ line) :
    readLine buffer (line ++ 10 :: rest) = (buffer ++ line.flatMap Utf8.encodeRune, rest) ↔
      (buffer = [] ∧ ∀ r ∈ line, r ∉ whiteSpace) := by
  simp only [← white_iff]
  constructor
  · intro h
    obtain ⟨pre, tok, post, h1, h2, h3⟩ := scanln_line line rest hl
    have e := congrArg Prod.fst h
    simp only [readLine, h2] at e
    rw [h1] at e
    simp only [List.flatMap_append] at e
    have hlen := congrArg List.length e
    simp only [List.length_append] at hlen
    have hb : buffer = [] := List.eq_nil_of_length_eq_zero (by omega)
    have hpre : pre = [] := encode_eq_nil (List.eq_nil_of_length_eq_zero (by omega))
    have hpost : post = [] := encode_eq_nil (List.eq_nil_of_length_eq_zero (by omega))
    refine ⟨hb, ?_⟩
    rw [h1, hpre, hpost]
    simpa using h3
  · rintro ⟨rfl, hs⟩
    simp [readLine, scanln_word line rest hs]

open Io in
/-- ReadLine into the same buffer, again and again: the buffer after each call, and the input left. -/
def readLines : Nat → GoStr → List Nat → List GoStr × List Nat
  | 0, _, input => ([], input)
  | n + 1, b, input =>
    let (b', rest) := readLine b input
    let (bs, rest') := readLines n b' rest
    (b' :: bs, rest')

open Io in
/-- C114, in part: if no line of the input contains white space, n calls read n lines (each in place of the
line before). -/
theorem C114_words_partial (lines : List (List Nat)) (hs : ∀ l ∈ lines, ∀ r ∈ l, r ∉ whiteSpace) (b : GoStr)
    (rest : List Nat) :
    readLines lines.length b (lines.flatMap (fun l => l ++ [10]) ++ rest) =
      (lines.map fun l => l.flatMap Utf8.encodeRune, rest) := by
  simp only [← white_iff] at hs
  induction lines generalizing b with
  | nil => rfl
  | cons l ls ih =>
    have e : (l :: ls).flatMap (fun l => l ++ [10]) ++ rest =
        l ++ 10 :: (ls.flatMap (fun l => l ++ [10]) ++ rest) := by simp
    rw [e, List.length_cons, readLines]
    simp only [readLine, scanln_word l _ (hs l (by simp))]
    rw [ih _ (fun l hl => hs l (by simp [hl]))]
    rfl

open Io in
/-- C114 fails: of a line that begins with a word, a space and another word, only the first word is stored, the
first letter of the second word is lost, and the next ReadLine goes on in the middle of the line. -/
theorem C114_readLine_fails (buffer : GoStr) (w : List Nat) (c : Nat) (more : List Nat) (hw : w ≠ [])
    (hs : ∀ r ∈ w, r ∉ whiteSpace) (hc : c ∉ whiteSpace) :
    readLine buffer (w ++ 32 :: c :: more) = (w.flatMap Utf8.encodeRune, more) := by
  simp only [← white_iff] at hs hc
  cases w with
  | nil => exact absurd rfl hw
  | cons r w =>
    have hr := hs r (by simp)
    have h10 : r ≠ 10 := by rintro rfl; exact absurd hr (by decide)
    have h13 : r ≠ 13 := by rintro rfl; exact absurd hr (by decide)
    have hc10 : c ≠ 10 := by rintro rfl; exact absurd hc (by decide)
    have hp : ∀ x ∈ r :: w, (!isSpace x) = true := fun x hx => by simp [hs x hx]
    have e : skipSpace (r :: w ++ 32 :: c :: more) = .ok (r :: (w ++ 32 :: c :: more)) := by
      rw [List.cons_append, skipSpace, if_neg (by simp [h13]), if_neg h10, if_neg (by simp [hr])]
    have h32 : isSpace 32 = true := by decide
    simp only [readLine, scanln]
    rw [e]
    simp only []
    rw [← List.cons_append, List.takeWhile_append_of_pos hp, List.dropWhile_append_of_pos hp]
    simp [h32, endOfLine, hc, hc10]

-- "hello world" into the buffer "ab": the buffer is "hello", the input left is "orld"
example : Io.readLine [97, 98] [104, 101, 108, 108, 111, 32, 119, 111, 114, 108, 100, 10, 120] =
    ([104, 101, 108, 108, 111], [111, 114, 108, 100, 10, 120]) := by decide
-- an empty line and a line "hé"
example : readLines 2 [] [13, 10, 104, 0xE9, 10, 120] = ([[], [104, 0xC3, 0xA9]], [120]) := by decide

/-! ### C115 Print, Println -/
section
variable {σ : Type}

/-- C115: Print writes the text Format gives, Println the text and a newline; if Format panics nothing is
written.  (C77 says what Format gives.) -/
theorem C115_print (f : GoStr) (ps : List (Fmt.Param σ)) (s s' : σ) (out : GoStr) :
    (∀ t, Fmt.format f ps s = (.ok t, s') →
      Io.print f ps (s, out) = (.ok (), (s', out ++ t)) ∧
      Io.println f ps (s, out) = (.ok (), (s', out ++ t ++ [10]))) ∧
    (∀ e, Fmt.format f ps s = (.error e, s') →
      Io.print f ps (s, out) = (.error e, (s', out)) ∧ Io.println f ps (s, out) = (.error e, (s', out))) := by
  constructor
  · intro t h
    constructor
    · simp [Io.print, Io.quiet, Io.write, Eff.bind_run, h]
    · simp [Io.println, Io.print, Io.quiet, Io.write, Eff.bind_run, h]
  · intro e h
    constructor
    · simp [Io.print, Io.quiet, Eff.bind_run, h]
    · simp [Io.println, Io.print, Io.quiet, Eff.bind_run, h]
end

namespace Io
open Conc
variable {V : Type}

/-- A goroutine that prints these lines. -/
def printer (who : Nat) : List GoStr → Proc V (Nat × GoStr)
  | [] => .done
  | t :: ts => printlnProc who t (printer who ts)

/-- Goroutines 0, 1, ... that print these lines each. -/
def printers (ls : List (List GoStr)) : Config V (Nat × GoStr) → Prop := fun s =>
  s.crashed = false ∧ s.procs.length = ls.length ∧
    ∀ i ts, ls[i]? = some ts → s.procs[i]? = some (printer i ts)

/-- The writes of a goroutine. -/
def emits (who : Nat) : List GoStr → Proc V (Nat × GoStr)
  | [] => .done
  | t :: ts => .emit (who, t) (emits who ts)

theorem printer_eq (who : Nat) (ts : List GoStr) :
    (printer who ts : Proc V (Nat × GoStr)) = emits who (ts.flatMap fun t => [t, [10]]) := by
  induction ts with
  | nil => rfl
  | cons t ts ih => simp [printer, printlnProc, emits, ih]

/-- What goroutine i has written. -/
def writtenBy (i : Nat) (tr : List (Nat × GoStr)) : List GoStr := (tr.filter (·.1 = i)).map (·.2)

/-- Every goroutine still has to do just the writes that are missing. -/
def Inv (ls : List (List GoStr)) (s : Config V (Nat × GoStr)) (tr : List (Nat × GoStr)) : Prop :=
  s.procs.length = ls.length ∧ ∀ i ts, ls[i]? = some ts → ∃ todo, s.procs[i]? = some (emits i todo) ∧
    writtenBy i tr ++ todo = ts.flatMap fun t => [t, [10]]

/-- If every goroutine is finished, about to emit or to lock, the next step is one of these. -/
theorem step_simple {E : Type} {s u : Config V E} {e : Option E} (h : Step s e u)
    (hp : ∀ (i : Nat) (p : Proc V E), s.procs[i]? = some p → p = .done ∨ (∃ e k, p = .emit e k) ∨ ∃ m k, p = .lock m k) :
    (∃ (i : Nat) (e' : E) (k : Proc V E), s.procs[i]? = some (.emit e' k) ∧ e = some e' ∧ u = s.to i k) ∨
    ∃ (i m : Nat) (k : Proc V E), s.procs[i]? = some (.lock m k) ∧ s.locks m = false ∧ e = none ∧
      u = { s.to i k with locks := upd s.locks m true } := by
  have no : ∀ (i : Nat) (p : Proc V E), s.procs[i]? = some p → p ≠ .done → (∀ e k, p ≠ .emit e k) →
      (∀ m k, p ≠ .lock m k) → False := by
    intro i p hi h1 h2 h3
    rcases hp i p hi with h | ⟨_, _, h⟩ | ⟨_, _, h⟩
    · exact h1 h
    · exact h2 _ _ h
    · exact h3 _ _ h
  have nosend : ∀ (i c : Nat) (v : V) (k : Proc V E), ¬ SendsAt s i c v k := by
    intro i c v k h
    rcases h with h | h <;> exact no _ _ h (by simp) (by simp) (by simp)
  cases h with
  | emit hc h => exact Or.inl ⟨_, _, _, h, rfl, rfl⟩
  | lock hc h hl => exact Or.inr ⟨_, _, _, h, hl, rfl, rfl⟩
  | sendBuf hc h => exact absurd h (nosend _ _ _ _)
  | sendClosed hc h => exact absurd h (nosend _ _ _ _)
  | meet hc h => exact absurd h (nosend _ _ _ _)
  | meetPoll hc h => exact absurd h (nosend _ _ _ _)
  | tau hc h => exact (no _ _ h (by simp) (by simp) (by simp)).elim
  | go hc h => exact (no _ _ h (by simp) (by simp) (by simp)).elim
  | make hc h => exact (no _ _ h (by simp) (by simp) (by simp)).elim
  | park hc h => exact (no _ _ h (by simp) (by simp) (by simp)).elim
  | recvBuf hc h => exact (no _ _ h (by simp) (by simp) (by simp)).elim
  | pollBuf hc h => exact (no _ _ h (by simp) (by simp) (by simp)).elim
  | recvClosed hc h => exact (no _ _ h (by simp) (by simp) (by simp)).elim
  | pollClosed hc h => exact (no _ _ h (by simp) (by simp) (by simp)).elim
  | pollDefault hc h => exact (no _ _ h (by simp) (by simp) (by simp)).elim
  | close hc h => exact (no _ _ h (by simp) (by simp) (by simp)).elim
  | closeClosed hc h => exact (no _ _ h (by simp) (by simp) (by simp)).elim
  | tryLock hc h => exact (no _ _ h (by simp) (by simp) (by simp)).elim
  | tryLockFails hc h => exact (no _ _ h (by simp) (by simp) (by simp)).elim
  | unlock hc h => exact (no _ _ h (by simp) (by simp) (by simp)).elim
  | unlockFree hc h => exact (no _ _ h (by simp) (by simp) (by simp)).elim
  | load hc h => exact (no _ _ h (by simp) (by simp) (by simp)).elim
  | store hc h => exact (no _ _ h (by simp) (by simp) (by simp)).elim

theorem emits_cases (who : Nat) (ts : List GoStr) : (emits who ts : Proc V (Nat × GoStr)) = .done ∨
    ∃ t r, ts = t :: r ∧ (emits who ts : Proc V (Nat × GoStr)) = .emit (who, t) (emits who r) := by
  cases ts with
  | nil => exact Or.inl rfl
  | cons t r => exact Or.inr ⟨t, r, rfl, rfl⟩

theorem inv_run {ls : List (List GoStr)} {s u : Config V (Nat × GoStr)} {tr : List (Nat × GoStr)}
    (hs : printers ls s) (h : Run s tr u) : Inv ls u tr := by
  induction h with
  | nil =>
    refine ⟨hs.2.1, fun i ts hi => ⟨_, ?_, by simp [writtenBy]; rfl⟩⟩
    rw [hs.2.2 i ts hi, printer_eq]
  | @step t u tr e r h ih =>
    obtain ⟨hl, hw⟩ := ih
    have all : ∀ (i : Nat) (p : Proc V (Nat × GoStr)), t.procs[i]? = some p →
        ∃ ts todo, ls[i]? = some ts ∧ p = emits i todo := by
      intro i p hi
      have hlt : i < ls.length := by
        rw [← hl]; exact (List.getElem?_eq_some_iff.1 hi).1
      obtain ⟨todo, h1, -⟩ := hw i ls[i] (by simp [hlt])
      rw [h1] at hi
      exact ⟨ls[i], todo, by simp [hlt], (Option.some.inj hi).symm⟩
    rcases step_simple h (by
        intro i p hi
        obtain ⟨ts, todo, -, rfl⟩ := all i p hi
        rcases emits_cases (V := V) i todo with h | ⟨t, r, -, h⟩
        · exact Or.inl h
        · exact Or.inr (Or.inl ⟨_, _, h⟩)) with ⟨i, e', k, h1, rfl, rfl⟩ | ⟨i, m, k, h1, -⟩
    · refine ⟨by simp [Config.to, hl], ?_⟩
      intro j ts hj
      obtain ⟨todo, h2, h3⟩ := hw j ts hj
      by_cases hij : i = j
      · subst hij
        rw [h1] at h2
        rcases emits_cases (V := V) i todo with h | ⟨t, r, rfl, h⟩
        · rw [h] at h2; simp at h2
        · rw [h] at h2
          simp only [Option.some.injEq, Proc.emit.injEq] at h2
          obtain ⟨rfl, rfl⟩ := h2
          refine ⟨r, ?_, ?_⟩
          · have := (List.getElem?_eq_some_iff.1 h1).1
            simp [Config.to, this]
          · rw [← h3]; simp [writtenBy]
      · refine ⟨todo, by simp [Config.to, hij, h2], ?_⟩
        have : e'.1 ≠ j := by
          obtain ⟨ts', todo', -, h4⟩ := all i _ h1
          rcases emits_cases (V := V) i todo' with h | ⟨t, r, rfl, h⟩
          · rw [h] at h4; cases h4
          · rw [h] at h4; cases h4; exact hij
        simpa [writtenBy, this] using h3
    · obtain ⟨ts, todo, -, h2⟩ := all i _ h1
      rcases emits_cases (V := V) i todo with h | ⟨t, r, -, h⟩ <;> (rw [h] at h2; cases h2)
end Io

open Io Conc in
/-- C115, in part: whatever the schedule, what each goroutine writes is, in order, the beginning of the lines it
prints.  Full property: the lines of different goroutines are not mixed with each other.  Missing: exactly that;
`C115_println_fails`. -/
theorem C115_println_partial {V : Type} (ls : List (List GoStr)) (s u : Config V (Nat × GoStr))
    (tr : List (Nat × GoStr)) (hs : printers ls s) (h : Run s tr u) (i : Nat) (ts : List GoStr)
    (hi : ls[i]? = some ts) : writtenBy i tr <+: ts.flatMap fun t => [t, [10]] := by
  obtain ⟨todo, -, h2⟩ := (inv_run hs h).2 i ts hi
  exact ⟨todo, h2⟩

open Io Conc in
/-- C115 fails: for any two lines that two goroutines print there is a schedule that writes both texts on one
line. -/
theorem C115_println_fails {V : Type} (a b : GoStr) (s : Config V (Nat × GoStr)) (hs : printers [[a], [b]] s) :
    ∃ u, Run s [(0, a), (1, b), (0, [10]), (1, [10])] u := by
  obtain ⟨hc, hl, hp⟩ := hs
  have h0 := hp 0 [a] rfl
  have h1 := hp 1 [b] rfl
  refine ⟨(((s.to 0 (.emit (0, [10]) .done)).to 1 (.emit (1, [10]) .done)).to 0 .done).to 1 .done, ?_⟩
  have r0 := Run.step (Run.nil s) (Step.emit hc h0)
  have r1 := Run.step r0 (Step.emit (i := 1) (e := (1, b)) (k := .emit (1, [10]) .done) hc (by simpa [Config.to, printer, printlnProc] using h1))
  have r2 := Run.step r1 (Step.emit (i := 0) (e := (0, [10])) (k := .done) hc (by simp [Config.to, printer, show s.procs.length = 2 from hl]))
  exact Run.step r2 (Step.emit (i := 1) (e := (1, [10])) (k := .done) hc (by simp [Config.to, printer, show s.procs.length = 2 from hl]))

-- the hypothesis is met
open Io Conc in
example : printers [[[104]], [[105], [106]]] (⟨[printer 0 [[104]], printer 1 [[105], [106]]], [], fun _ => false,
    fun _ => (), false⟩ : Config Unit (Nat × GoStr)) := by
  refine ⟨rfl, rfl, fun i ts h => ?_⟩
  match i with
  | 0 => simp at h; subst h; rfl
  | 1 => simp at h; subst h; rfl
  | n + 2 => simp at h
-- Println("{}!", 7) after "ab"
example : Io.println (σ := Unit) [123, 125, 33] [some (pure [55])] ((), [97, 98]) =
    (.ok (), ((), [97, 98, 55, 33, 10])) := by decide +kernel

/-! ### C116 Stdin.Lock -/
open Io Conc in
/-- C116 fails.  Property: after `stdin.Lock()` no other goroutine reads until the guard is released, and the
holder can read.  But Lock only returns the mutex: whatever the state, if the mutex was free, another goroutine
still reads. -/
theorem C116_lock_fails {V E : Type} (s : Config V E) (hc : s.crashed = false) (i j m : Nat) (hij : i ≠ j)
    (k : Nat → Proc V E) (k' : Proc V E) (read : E) (hi : s.procs[i]? = some (stdinLock m k))
    (hj : s.procs[j]? = some (readLineProc m read k')) (hm : s.locks m = false) :
    s.procs[i]? = some (k m) ∧ ∃ u, Run s [read] u ∧ u.procs[i]? = some (k m) := by
  refine ⟨hi, ?_⟩
  have hlt := (List.getElem?_eq_some_iff.1 hj).1
  have r1 := Run.step (Run.nil s) (Step.lock hc hj hm)
  have r2 := Run.step r1 (Step.emit (i := j) (e := read) (k := .unlock m k') hc (by simp [Config.to, hlt]))
  refine ⟨_, r2, ?_⟩
  simp [Config.to, Ne.symm hij]
  exact hi

open Io Conc in
/-- C116 fails: a program that locks the mutex it got from Lock and then reads never reads. -/
theorem C116_holder_fails {V E : Type} (vars : Nat → V) (m : Nat) (read : E) (k : Proc V E) (tr : List E)
    (u : Config V E)
    (h : Run (start vars (stdinLock m fun g => .lock g (readLineProc m read k))) tr u) : tr = [] := by
  have key : tr = [] ∧ ((u.procs = [.lock m (readLineProc m read k)] ∧ u.locks m = false) ∨
      (u.procs = [readLineProc m read k] ∧ u.locks m = true)) := by
    generalize hs : start vars (stdinLock m fun g => .lock g (readLineProc m read k)) = s at h
    induction h with
    | nil => subst hs; exact ⟨rfl, Or.inl ⟨rfl, rfl⟩⟩
    | step r h ih =>
      obtain ⟨rfl, ih⟩ := ih
      rcases step_simple h (by
        intro i p hi
        rcases ih with ⟨ih, -⟩ | ⟨ih, -⟩ <;>
        · rw [ih, List.getElem?_singleton] at hi
          split at hi
          · cases hi; exact Or.inr (Or.inr ⟨_, _, rfl⟩)
          · cases hi) with ⟨i, e', k', h1, -⟩ | ⟨i, m', k', h1, h2, rfl, rfl⟩
      · rcases ih with ⟨ih, -⟩ | ⟨ih, -⟩ <;>
        · rw [ih, List.getElem?_singleton] at h1
          split at h1 <;> cases h1
      · rcases ih with ⟨ih, hl⟩ | ⟨ih, hl⟩
        · rw [ih, List.getElem?_singleton] at h1
          split at h1
          · rename_i hi
            simp only [Option.some.injEq, Proc.lock.injEq] at h1
            obtain ⟨rfl, rfl⟩ := h1
            subst hi
            exact ⟨rfl, Or.inr ⟨by simp [Config.to, ih], by simp [upd]⟩⟩
          · cases h1
        · rw [ih, List.getElem?_singleton] at h1
          split at h1
          · simp only [readLineProc, Option.some.injEq, Proc.lock.injEq] at h1
            obtain ⟨rfl, -⟩ := h1
            rw [hl] at h2; cases h2
          · cases h1
  exact key.1

/-! ### C117 AsRef -/

/-- C117, in part: right after `p := x.AsRef()` the pointer is to a variable with the value of x, and no variable
has changed.  Full property: p refers to x, so that writes to x are seen through p and the other way round.
Missing: that; `C117_asRef_fails`. -/
theorem C117_asRef_partial {α : Type} (vars : List α) (x : Nat) (hx : x < vars.length) :
    ∃ vars' p, asRef vars x = .ok (vars', p) ∧ vars'[p]? = some vars[x] ∧
      ∀ y < vars.length, vars'[y]? = vars[y]? := by
  refine ⟨vars ++ [vars[x]], vars.length, by simp [asRef, index_lt hx], by simp, ?_⟩
  intro y hy
  rw [List.getElem?_append_left hy]

/-- C117 fails: writes to x are never seen through the pointer, and writes through the pointer never reach x. -/
theorem C117_asRef_fails {α : Type} (vars : List α) (x : Nat) (hx : x < vars.length) (v : α) :
    ∃ vars' p, asRef vars x = .ok (vars', p) ∧
      (∃ w, setIndex vars' x v = .ok w ∧ w[x]? = some v ∧ w[p]? = some vars[x]) ∧
      (∃ w, setIndex vars' p v = .ok w ∧ w[p]? = some v ∧ w[x]? = some vars[x]) := by
  refine ⟨vars ++ [vars[x]], vars.length, by simp [asRef, index_lt hx], ?_, ?_⟩
  · refine ⟨(vars ++ [vars[x]]).set x v, setIndex_lt (by simp; omega), List.getElem?_set_self (by simp; omega), ?_⟩
    rw [List.getElem?_set_ne (by omega)]; simp
  · refine ⟨_, setIndex_lt (by simp), by simp, ?_⟩
    rw [List.getElem?_set_ne (by omega), List.getElem?_append_left hx, List.getElem?_eq_getElem hx]
example : asRef [3, 5] 1 = .ok ([3, 5, 5], 2) := by decide
end Gost
