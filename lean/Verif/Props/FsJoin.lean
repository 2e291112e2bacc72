import Verif.Props.FsTree
/-
Property C87, the paths in a listing, for directories given by any path: also with "." and ".." in it.
-/
namespace Gost
open Os Spec Fs

/-- Going along the components of a path, without symbolic links on the way: "." stays, ".." goes to the directory
above, a name to its entry. -/
inductive Spec.Goes (fs : FS) : Nat → List Name → Nat → Prop where
  | here (a : Nat) : Goes fs a [] a
  | stay {a b : Nat} {rest : List Name} : IsDir fs a → Goes fs a rest b → Goes fs a ([46] :: rest) b
  | up {a u b : Nat} {es : List (Name × Nat)} {rest : List Name} : fs.nodes[a]? = some (.dir u es) →
      Goes fs u rest b → Goes fs a ([46, 46] :: rest) b
  | into {a k b : Nat} {n : Name} {rest : List Name} : inode fs a n = some k →
      (∀ t, fs.nodes[k]? ≠ some (.link t)) → Goes fs k rest b → Goes fs a (n :: rest) b

theorem Spec.Goes.append {fs : FS} {a b c : Nat} {p q : List Name} (h : Goes fs a p b) (h' : Goes fs b q c) :
    Goes fs a (p ++ q) c := by
  induction h with
  | here => exact h'
  | stay hd _ ih => exact .stay hd (ih h')
  | up hd _ ih => exact .up hd (ih h')
  | into hd hl _ ih => exact .into hd hl (ih h')

theorem Spec.Goes.split {fs : FS} {q : List Name} : ∀ {p : List Name} {a c : Nat}, Goes fs a (p ++ q) c →
    ∃ b, Goes fs a p b ∧ Goes fs b q c
  | [], a, _, h => ⟨a, .here a, h⟩
  | n :: p, a, c, h => by
    cases h with
    | stay hd h => obtain ⟨b, h1, h2⟩ := h.split; exact ⟨b, .stay hd h1, h2⟩
    | up hd h => obtain ⟨b, h1, h2⟩ := h.split; exact ⟨b, .up hd h1, h2⟩
    | into hd hl h => obtain ⟨b, h1, h2⟩ := h.split; exact ⟨b, .into hd hl h1, h2⟩

/-- Resolution goes the same way. -/
theorem Spec.Goes.walk {fs : FS} (t : Tree fs) {f : Bool} {a b : Nat} {q rest : List Name} (h : Goes fs a q b) :
    ∀ fuel, q.length ≤ fuel → Os.walk fs f fuel a (q ++ rest) = Os.walk fs f (fuel - q.length) b rest := by
  induction h with
  | here => intro fuel _; simp
  | stay hd _ ih =>
    intro fuel hf
    obtain ⟨u, es, hd⟩ := hd
    obtain ⟨fuel, rfl⟩ : ∃ k, fuel = k + 1 := ⟨fuel - 1, by simp at hf; omega⟩
    simp only [List.length_cons] at hf
    rw [List.cons_append, Os.walk, hd]
    simp only [dot, if_true]
    rw [ih fuel (by omega)]
    simp only [List.length_cons, Nat.add_sub_add_right]
  | up hd _ ih =>
    intro fuel hf
    obtain ⟨fuel, rfl⟩ : ∃ k, fuel = k + 1 := ⟨fuel - 1, by simp at hf; omega⟩
    simp only [List.length_cons] at hf
    rw [List.cons_append, Os.walk, hd]
    simp only [dot, dotdot, if_true]
    rw [if_neg (by decide), ih fuel (by omega)]
    simp only [List.length_cons, Nat.add_sub_add_right]
  | @into a k b n rest' hd hl _ ih =>
    intro fuel hf
    obtain ⟨u, es, he⟩ := entry_dir hd
    obtain ⟨fuel, rfl⟩ : ∃ k, fuel = k + 1 := ⟨fuel - 1, by simp at hf; omega⟩
    simp only [List.length_cons] at hf
    have h1 : n ≠ dot := by rintro rfl; rw [(t.dots a).1] at hd; cases hd
    have h2 : n ≠ dotdot := by rintro rfl; rw [(t.dots a).2] at hd; cases hd
    rw [List.cons_append, Os.walk, he]
    have hlk : es.lookup n = some k := by simpa [inode, he] using hd
    simp only [if_neg h1, if_neg h2, hlk]
    have e : fuel + 1 - (n :: rest').length = fuel - rest'.length := by simp only [List.length_cons]; omega
    rw [e]
    refine Eq.trans ?_ (ih fuel (by omega))
    match hk : fs.nodes[k]? with
    | some (.link t) => exact absurd hk (hl t)
    | some (.dir _ _) => rfl
    | some (.file _) => rfl
    | none => rfl

theorem clean_goes {fs : FS} (t : Tree fs) {abs : Bool} {s : Nat} (hs : abs = true → s = 0) :
    ∀ (rest acc : List Name) {a b : Nat}, Goes fs s acc a → (dot ∉ acc) → Goes fs a rest b →
      Goes fs s (cleanNames abs acc rest) b := by
  intro rest
  induction rest with
  | nil => intro acc a b h _ h'; cases h'; exact h
  | cons n rest ih =>
    intro acc a b h hd h'
    cases h' with
    | stay _ h' =>
      rw [cleanNames, if_pos (show ([46] : Name) = dot from rfl)]
      exact ih acc h hd h'
    | @up _ u _ es _ he h' =>
      rw [cleanNames, if_neg (by decide), if_pos (show ([46, 46] : Name) = dotdot from rfl)]
      have hsnoc : Goes fs s (acc ++ [dotdot]) u := h.append (.up he (.here u))
      have hdots : dot ∉ acc ++ [[46, 46]] := by
        intro hm
        rcases List.mem_append.1 hm with hm | hm
        · exact hd hm
        · exact absurd (List.mem_singleton.1 hm) (by decide)
      rcases List.eq_nil_or_concat acc with rfl | ⟨acc', m, rfl⟩
      · simp only [List.getLast?_nil]
        cases h
        cases abs with
        | true =>
          obtain rfl := hs rfl
          obtain ⟨es0, h0⟩ := t.top
          rw [h0] at he
          cases he
          exact ih [] (.here 0) (by simp) h'
        | false => exact ih _ hsnoc hdots h'
      · rw [List.concat_eq_append] at *
        simp only [List.getLast?_append, List.getLast?_singleton, Option.some_or, List.dropLast_concat]
        by_cases hm : m = dotdot
        · rw [if_pos hm]
          exact ih _ hsnoc hdots h'
        · rw [if_neg hm]
          obtain ⟨a', h1, h2⟩ := h.split
          have hda : dot ∉ acc' := fun hx => hd (List.mem_append_left _ hx)
          cases h2 with
          | stay _ _ => exact absurd (List.mem_append_right _ (by simp [dot])) hd
          | up _ _ => exact absurd rfl hm
          | into hin _ hnil =>
            cases hnil
            obtain ⟨es', h3⟩ := t.up _ _ _ hin ⟨u, es, he⟩
            rw [he] at h3
            cases h3
            exact ih acc' h1 hda h'
    | into hin hl h' =>
      have h1 : n ≠ dot := by rintro rfl; rw [(t.dots a).1] at hin; cases hin
      have h2 : n ≠ dotdot := by rintro rfl; rw [(t.dots a).2] at hin; cases hin
      rw [cleanNames, if_neg h1, if_neg h2]
      refine ih _ (h.append (.into hin hl (.here _))) ?_ h'
      intro hm
      rcases List.mem_append.1 hm with hm | hm
      · exact hd hm
      · exact h1 (List.mem_singleton.1 hm).symm

theorem clean_snoc {abs : Bool} {n : Name} (h1 : n ≠ dot) (h2 : n ≠ dotdot) : ∀ (l acc : List Name),
    cleanNames abs acc (l ++ [n]) = cleanNames abs acc l ++ [n]
  | [], acc => by simp [cleanNames, h1, h2]
  | m :: l, acc => by
    have ih := clean_snoc h1 h2 (abs := abs) l
    rw [List.cons_append, cleanNames, cleanNames]
    repeat' split
    all_goals exact ih _

theorem clean_length {abs : Bool} : ∀ (l acc : List Name), (cleanNames abs acc l).length ≤ acc.length + l.length
  | [], acc => by simp [cleanNames]
  | m :: l, acc => by
    have ih := fun acc => clean_length (abs := abs) l acc
    have e1 := ih acc
    have e2 := ih (acc ++ [m])
    have e3 := ih acc.dropLast
    simp only [List.length_append, List.length_dropLast, List.length_cons, List.length_nil] at *
    rw [cleanNames]
    repeat' split
    all_goals omega

/-- **C87**: the path of an item leads to the entry, whatever "." and ".." there are in the path of the directory, if
    no symbolic link is on the way: to the entry itself, and if that is no symbolic link also when links are
    followed. -/
theorem C87_path_leads (fs : FS) (t : Tree fs) (p : Path) (d k : Nat) (n : Name)
    (hp : Goes fs (if p.abs then 0 else fs.cwd) p.names d) (hk : inode fs d n = some k) (hl : p.names.length ≤ fs.limit) :
    resolve fs false (join p n) = .found k ∧
    ((∀ t, fs.nodes[k]? ≠ some (.link t)) → resolve fs true (join p n) = .found k) := by
  have h1 : n ≠ dot := by rintro rfl; rw [(t.dots d).1] at hk; cases hk
  have h2 : n ≠ dotdot := by rintro rfl; rw [(t.dots d).2] at hk; cases hk
  have hg := clean_goes t (abs := p.abs) (s := if p.abs then 0 else fs.cwd) (fun h => by rw [h]; rfl) p.names []
    (.here _) (by simp) hp
  have hlen := clean_length (abs := p.abs) p.names []
  simp only [List.length_nil, Nat.zero_add] at hlen
  have hj : join p n = ⟨p.abs, cleanNames p.abs [] p.names ++ [n]⟩ := by rw [join, clean_snoc h1 h2]
  obtain ⟨u, es, he⟩ := entry_dir hk
  have hlk : es.lookup n = some k := by simpa [inode, he] using hk
  obtain ⟨fuel, hfuel⟩ : ∃ x, fs.limit + 1 - (cleanNames p.abs [] p.names).length = x + 1 :=
    ⟨fs.limit - (cleanNames p.abs [] p.names).length, by omega⟩
  rw [hj]
  unfold resolve
  simp only [List.append_eq_nil_iff, List.cons_ne_self, and_false, if_false]
  rw [hg.walk t _ (by omega), hg.walk t _ (by omega), hfuel]
  simp only [Os.walk, he, if_neg h1, if_neg h2, hlk]
  constructor
  · match hn : fs.nodes[k]? with
    | some (.link t) => simp
    | some (.dir _ _) => simp
    | some (.file _) => simp
    | none => simp
  · intro hnl
    match hn : fs.nodes[k]? with
    | some (.link t) => exact absurd hn (hnl t)
    | some (.dir _ _) => simp
    | some (.file _) => simp
    | none => simp

/-- Names that a path is made of once it is clean: ".." in front only, and not at all if it is absolute. -/
def Spec.Clean (abs : Bool) (l : List Name) : Prop :=
  ∃ (k : Nat) (r : List Name), l = List.replicate k [46, 46] ++ r ∧ [46] ∉ r ∧ [46, 46] ∉ r ∧ (abs = true → k = 0)

theorem clean_clean {abs : Bool} : ∀ (l acc : List Name), Clean abs acc → Clean abs (cleanNames abs acc l)
  | [], acc, h => h
  | n :: l, acc, h => by
    have ih := clean_clean (abs := abs) l
    obtain ⟨k, r, rfl, h1, h2, h3⟩ := h
    have hsame : Clean abs (List.replicate k [46, 46] ++ r) := ⟨k, r, rfl, h1, h2, h3⟩
    rw [cleanNames]
    by_cases hn : n = dot
    · rw [if_pos hn]; exact ih _ hsame
    · rw [if_neg hn]
      by_cases hn2 : n = dotdot
      · rw [if_pos hn2]
        rcases List.eq_nil_or_concat r with rfl | ⟨r', m, rfl⟩
        · rw [List.append_nil]
          cases k with
          | zero =>
            simp only [List.replicate_zero, List.getLast?_nil]
            cases abs with
            | true => exact ih _ ⟨0, [], rfl, by simp, by simp, fun _ => rfl⟩
            | false => exact ih _ ⟨1, [], by simp [hn2, dotdot], by simp, by simp, fun h => by cases h⟩
          | succ k =>
            have hl : (List.replicate (k + 1) ([46, 46] : Name)).getLast? = some dotdot := by
              rw [List.replicate_succ', List.getLast?_append]; rfl
            simp only [hl, if_true]
            refine ih _ ⟨k + 2, [], ?_, by simp, by simp, fun h => absurd (h3 h) (by omega)⟩
            rw [hn2, List.append_nil, List.replicate_succ' (n := k + 1)]
            rfl
        · rw [List.concat_eq_append] at *
          simp only [← List.append_assoc, List.getLast?_append, List.getLast?_singleton, Option.some_or,
            List.dropLast_concat]
          rw [if_neg (fun hm => h2 (by rw [hm]; exact List.mem_append_right _ (by simp [dotdot])))]
          exact ih _ ⟨k, r', rfl, fun hm => h1 (List.mem_append_left _ hm), fun hm => h2 (List.mem_append_left _ hm), h3⟩
      · rw [if_neg hn2]
        refine ih _ ⟨k, r ++ [n], by simp, ?_, ?_, h3⟩
        · intro hm
          rcases List.mem_append.1 hm with hm | hm
          · exact h1 hm
          · exact hn (List.mem_singleton.1 hm).symm
        · intro hm
          rcases List.mem_append.1 hm with hm | hm
          · exact h2 hm
          · exact hn2 (List.mem_singleton.1 hm).symm

/-- **C87**: the path of an item is clean, whatever the path of the directory is. -/
theorem C87_path_clean (p : Path) (n : Name) : Clean p.abs (join p n).names :=
  clean_clean _ _ ⟨0, [], rfl, by simp, by simp, fun _ => rfl⟩

/-- **C87** fails for directories reached over a symbolic link and "..": the path of an item is cleaned without looking
    at the links.  With a link `l` in the root to a directory `s` elsewhere, "/l/.." is the directory `d` that `s` is
    in, and the items of its listing have paths that start at the root. -/
theorem C87_path_link_fails (fs : FS) (t : Tree fs) (l n : Name) (j s d k : Nat) (tgt : Path) (es : List (Name × Nat))
    (hl : inode fs 0 l = some j) (hj : fs.nodes[j]? = some (.link tgt)) (ha : tgt.abs = true)
    (hs : Goes fs 0 tgt.names s) (hd : fs.nodes[s]? = some (.dir d es)) (hk : inode fs d n = some k)
    (hn : inode fs 0 n = none) (hlim : tgt.names.length < fs.limit) :
    resolve fs true ⟨true, [l, [46, 46]]⟩ = .found d ∧ join ⟨true, [l, [46, 46]]⟩ n = ⟨true, [n]⟩ ∧
      resolve fs false (join ⟨true, [l, [46, 46]]⟩ n) = .absent 0 n := by
  have h1 : n ≠ dot := by rintro rfl; rw [(t.dots d).1] at hk; cases hk
  have h2 : n ≠ dotdot := by rintro rfl; rw [(t.dots d).2] at hk; cases hk
  have l1 : l ≠ dot := by rintro rfl; rw [(t.dots 0).1] at hl; cases hl
  have l2 : l ≠ dotdot := by rintro rfl; rw [(t.dots 0).2] at hl; cases hl
  obtain ⟨es0, h0⟩ := t.top
  have hlk : es0.lookup l = some j := by simpa [inode, h0] using hl
  have hno : es0.lookup n = none := by simpa [inode, h0] using hn
  have hjoin : join ⟨true, [l, [46, 46]]⟩ n = ⟨true, [n]⟩ := by
    simp [join, cleanNames, l1, l2, h1, h2, show dotdot ≠ dot by decide, show ([46, 46] : Name) = dotdot from rfl]
  refine ⟨?_, hjoin, ?_⟩
  · obtain ⟨fuel, hfuel⟩ : ∃ x, fs.limit - tgt.names.length = x + 1 := ⟨fs.limit - tgt.names.length - 1, by omega⟩
    simp only [resolve, Bool.true_eq_false, false_and, if_false, if_true]
    rw [Os.walk, h0]
    simp only [if_neg l1, if_neg l2, hlk, hj, ha, if_true, List.cons_ne_self, reduceCtorEq, false_and, if_false]
    rw [hs.walk t _ (by omega), hfuel, Os.walk, hd]
    simp [Os.walk, show dotdot ≠ dot by decide, show ([46, 46] : Name) = dotdot from rfl]
  · rw [hjoin]
    simp only [resolve, Bool.true_eq_false, false_and, if_false, if_true]
    rw [Os.walk, h0]
    simp only [if_neg h1, if_neg h2, hno, if_true]

/-- `/a` with the directory `s` and the file `x`; `/l` is a link to `/a/s`. -/
def Fs.crooked : FS :=
  { nodes := [.dir 0 [([97], 1), ([108], 4)], .dir 0 [([115], 2), ([120], 3)], .dir 1 [], .file [7],
      .link ⟨true, [[97], [115]]⟩]
    cwd := 0, limit := 40, dirSize := fun _ => 4096 }

theorem Fs.crooked_inode {d k : Nat} {n : Name} (h : inode crooked d n = some k) :
    (d = 0 ∧ n = [97] ∧ k = 1) ∨ (d = 0 ∧ n = [108] ∧ k = 4) ∨ (d = 1 ∧ n = [115] ∧ k = 2) ∨
    (d = 1 ∧ n = [120] ∧ k = 3) := by
  have mem : ∀ (es : List (Name × Nat)), es.lookup n = some k → (n, k) ∈ es := by
    intro es he
    induction es with
    | nil => cases he
    | cons a es ih =>
      rw [List.lookup_cons] at he
      split at he
      · rename_i hb
        rw [beq_iff_eq] at hb
        cases he
        subst hb
        exact .head _
      · exact .tail _ (ih he)
  match d with
  | 0 =>
    have := mem [([97], 1), ([108], 4)] h
    simp at this
    rcases this with ⟨rfl, rfl⟩ | ⟨rfl, rfl⟩ <;> decide
  | 1 =>
    have := mem [([115], 2), ([120], 3)] h
    simp at this
    rcases this with ⟨rfl, rfl⟩ | ⟨rfl, rfl⟩ <;> decide
  | 2 => cases mem [] h
  | 3 | 4 => cases h
  | d + 5 => cases h

theorem Fs.crooked_tree : Tree crooked where
  top := ⟨_, rfl⟩
  cwd := ⟨_, _, rfl⟩
  dots d := by
    constructor
    · match h : inode crooked d dot with
      | none => rfl
      | some k => rcases crooked_inode h with h | h | h | h <;> exact absurd h.2.1 (by decide)
    · match h : inode crooked d dotdot with
      | none => rfl
      | some k => rcases crooked_inode h with h | h | h | h <;> exact absurd h.2.1 (by decide)
  upDir k u es h := by
    match k with
    | 0 | 1 | 2 => cases h; exact ⟨_, _, rfl⟩
    | 3 | 4 => cases h
    | k + 5 => cases h
  root d n h := by rcases crooked_inode h with h | h | h | h <;> exact absurd h.2.2 (by decide)
  up d n k h hk := by
    rcases crooked_inode h with ⟨rfl, -, rfl⟩ | ⟨rfl, -, rfl⟩ | ⟨rfl, -, rfl⟩ | ⟨rfl, -, rfl⟩
    · exact ⟨_, rfl⟩
    · obtain ⟨u, e, hk⟩ := hk; cases hk
    · exact ⟨_, rfl⟩
    · obtain ⟨u, e, hk⟩ := hk; cases hk
  name d n n' k h h' hk := by
    have a := crooked_inode h
    have b := crooked_inode h'
    rcases a with ⟨rfl, rfl, rfl⟩ | ⟨rfl, rfl, rfl⟩ | ⟨rfl, rfl, rfl⟩ | ⟨rfl, rfl, rfl⟩ <;> simp at b <;> exact b.symm
  range d n k h := by
    rcases crooked_inode h with h | h | h | h <;> rw [h.2.2] <;> decide

-- the listing of "/l/..", which is /a, has an item with the path "/x", and there is no such file
example : resolve Fs.crooked true ⟨true, [[108], [46, 46]]⟩ = .found 1 ∧
    join ⟨true, [[108], [46, 46]]⟩ [120] = ⟨true, [[120]]⟩ ∧
    resolve Fs.crooked false (join ⟨true, [[108], [46, 46]]⟩ [120]) = .absent 0 [120] :=
  C87_path_link_fails Fs.crooked Fs.crooked_tree [108] [120] 4 2 1 3 ⟨true, [[97], [115]]⟩ [] rfl rfl rfl
    (.into (k := 1) rfl (by intro t h; cases h) (.into (k := 2) rfl (by intro t h; cases h) (.here 2))) rfl rfl rfl
    (by decide)

-- "/e/.././d/s/.." is /d, and the item of its entry "x" has the path "/d/x"
example : let fs := runAll Fs.blank Fs.grown
    let p : Path := ⟨true, [[101], [46, 46], [46], [100], [115], [46, 46]]⟩
    Tree fs ∧ Goes fs 0 p.names 1 ∧ inode fs 1 [120] = some 2 ∧ p.names.length ≤ fs.limit ∧
      join p [120] = ⟨true, [[100], [120]]⟩ := by
  have nl : ∀ k < 5, ∀ t, (runAll Fs.blank Fs.grown).nodes[k]? ≠ some (.link t) := by
    intro k hk t
    have : (match (runAll Fs.blank Fs.grown).nodes[k]? with | some (.link _) => true | _ => false) = false := by
      revert k; decide +kernel
    intro e; rw [e] at this; cases this
  refine ⟨runAll_tree Fs.blank_tree _, ?_, by decide +kernel, by decide +kernel, by decide⟩
  refine .into (k := 4) (by decide +kernel) (nl 4 (by decide)) (.up (u := 0) (es := []) (by decide +kernel) ?_)
  refine .stay ⟨0, [([100], 1), ([101], 4)], by decide +kernel⟩ ?_
  refine .into (k := 1) (by decide +kernel) (nl 1 (by decide)) (.into (k := 3) (by decide +kernel) (nl 3 (by decide)) ?_)
  exact .up (u := 1) (es := []) (by decide +kernel) (.here 1)
-- ".." at the root stays there, in a relative path it stays in the path; a path is cleaned without looking
example : join ⟨true, [[46, 46], [97]]⟩ [98] = ⟨true, [[97], [98]]⟩ ∧
    join ⟨false, [[97], [46, 46], [46, 46]]⟩ [98] = ⟨false, [[46, 46], [98]]⟩ := by decide
end Gost
