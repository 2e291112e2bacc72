import Verif.Props.TaskLocks
import Mathlib.Algebra.Group.Defs
import Mathlib.Algebra.Group.Int.Defs
import Mathlib.Algebra.Group.Pi.Basic
/-
Property C165: what is shown about every task by itself holds for the whole program.
-/
namespace Gost
open Conc TaskLocks
namespace TaskLogic
variable {V M : Type} [AddCommMonoid M]

/-! ### Specification: what has to be shown about a task -/

/-- The claims `g` may be replaced by `g'`, whatever the others claim. -/
def Update (valid : M → Prop) (g g' : M) : Prop := ∀ f, valid (g + f) → valid (g' + f)
/-- The claims `g` are compatible with some claims of the others. -/
def Possible (valid : M → Prop) (g : M) : Prop := ∃ f, valid (g + f)

/-- `Holds valid N I code know posts g Q`: the body `code`, in the hands of a task, gives a result `v` and then has claims `g'` with
`Q v g'`.  The task knows the values `know` of the Mutexes it has locked, holds futures whose results and claims satisfy `posts`, and
has the claims `g`.  `I m v g` says which values `v` the Mutex `m` may have when it is unlocked, with the claims `g` kept with it.
There are `N` Mutexes.  Each line looks at one operation of one task only. -/
def Holds (valid : M → Prop) (N : Nat) (I : Nat → V → M → Prop) :
    Code V → (Nat → Option V) → List (V → M → Prop) → M → (V → M → Prop) → Prop
  | .ret v, know, _, g, Q => know = (fun _ => none) ∧ ∃ g', Update valid g g' ∧ Q v g'
  | .spawn child r, know, posts, g, Q => ∃ g1 g2 Qc, Update valid g (g1 + g2) ∧ Holds valid N I child (fun _ => none) [] g1 Qc ∧
      Holds valid N I r know (posts ++ [Qc]) g2 Q
  | .await i r, know, posts, g, Q => ∃ Qi, posts[i]? = some Qi ∧
      ∀ v g', Qi v g' → Possible valid (g + g') → Holds valid N I (r v) know (posts.eraseIdx i) (g + g') Q
  | .lock m r, know, posts, g, Q => m < N ∧
      ∀ v g', I m v g' → Possible valid (g + g') → Holds valid N I r (upd know m (some v)) posts (g + g') Q
  | .unlock m r, know, posts, g, Q => ∃ v g1 g2, know m = some v ∧ Update valid g (g1 + g2) ∧ I m v g1 ∧
      Holds valid N I r (upd know m none) posts g2 Q
  | .get m r, know, posts, g, Q => ∃ v, know m = some v ∧ Holds valid N I (r v) know posts g Q
  | .put m v r, know, posts, g, Q => know m ≠ none ∧ Holds valid N I r (upd know m (some v)) posts g Q

/-! ### The claims of all tasks and Mutexes -/

/-- What a task that has locked the Mutexes `l` knows. -/
def known (f : Nat → V) (l : List Nat) : Nat → Option V := fun m => if m ∈ l then some (f m) else none

def StHolds (valid : M → Prop) (N : Nat) (I : Nat → V → M → Prop) (f : Nat → V) (tr : List V) (post : Nat → V → M → Prop) (g : M)
    (Q : V → M → Prop) (chan : Option Nat) : TaskSt V → Prop
  | .run code l env => Holds valid N I code (known f l) (env.map fun e => post e.1) g Q
  | .going _ child r c l env => ∃ g1 g2, g = g1 + g2 ∧ Holds valid N I child (fun _ => none) [] g1 (post c) ∧
      Holds valid N I r (known f l) ((env.map fun e => post e.1) ++ [post c]) g2 Q
  | .parked v => Q v g
  | .closing => g = 0
  | .over => match chan with
    | none => ∃ v, tr = [v] ∧ Q v g
    | some _ => g = 0

/-- What the result of a task satisfies. -/
def postOf (Q : V → M → Prop) (post : Nat → V → M → Prop) : Option Nat → V → M → Prop
  | none => Q
  | some c => post c

def sum (g : Nat → M) : Nat → M
  | 0 => 0
  | n + 1 => sum g n + g n

structure Log (valid : M → Prop) (N : Nat) (I : Nat → V → M → Prop) (Q : V → M → Prop) (ts : List (TaskLocks.Task V)) (f : Nat → V) (tr : List V)
    (post : Nat → V → M → Prop) (gs gm : Nat → M) : Prop where
  task : ∀ (i : Nat) t, ts[i]? = some t → StHolds valid N I f tr post (gs i) (postOf Q post t.chan) t.chan t.st
  free : ∀ m, m < N → (∀ (i : Nat) t, ts[i]? = some t → m ∉ t.st.locks) → I m (f m) (gm m)
  held : ∀ m (i : Nat) t, ts[i]? = some t → m ∈ t.st.locks → m < N ∧ gm m = 0
  total : valid (sum gs ts.length + sum gm N)

/-! ### Sums -/

theorem sum_congr {g g' : Nat → M} {n : Nat} (h : ∀ i, i < n → g i = g' i) : sum g n = sum g' n := by
  induction n with
  | zero => rfl
  | succ n ih =>
    rw [sum, sum, ih fun i hi => h i (by omega), h n (by omega)]

theorem sum_upd (g : Nat → M) {i n : Nat} (hi : i < n) : ∃ rest, ∀ x, sum (upd g i x) n = x + rest := by
  induction n with
  | zero => omega
  | succ n ih =>
    by_cases h : i = n
    · subst h
      refine ⟨sum g i, fun x => ?_⟩
      rw [sum, add_comm x]
      congr 1
      · exact sum_congr fun j hj => by simp only [upd]; rw [if_neg (by omega)]
      · simp [upd]
    · obtain ⟨rest, hr⟩ := ih (by omega)
      refine ⟨rest + g n, fun x => ?_⟩
      rw [sum, hr, add_assoc]
      congr 2
      simp only [upd]
      rw [if_neg (by omega)]

theorem upd_same {M : Type} (g : Nat → M) (i : Nat) : upd g i (g i) = g := by
  funext j
  simp only [upd]
  split
  · rename_i h; rw [h]
  · rfl

/-- One summand. -/
theorem sum_one (g : Nat → M) {i n : Nat} (hi : i < n) : ∃ rest, sum g n = g i + rest ∧ ∀ x, sum (upd g i x) n = x + rest := by
  obtain ⟨rest, hr⟩ := sum_upd g hi
  refine ⟨rest, ?_, hr⟩
  rw [← hr, upd_same]

/-- Two summands. -/
theorem sum_two (g : Nat → M) {i j n : Nat} (hi : i < n) (hj : j < n) (hij : i ≠ j) :
    ∃ rest, sum g n = g i + (g j + rest) ∧ ∀ x y, sum (upd (upd g j y) i x) n = x + (y + rest) := by
  have h1 : ∃ rest, ∀ x y, sum (upd (upd g j y) i x) n = x + (y + rest) := by
    induction n with
    | zero => omega
    | succ n ih =>
      by_cases h1 : i = n
      · subst h1
        obtain ⟨rest, hr⟩ := sum_upd g (i := j) (n := i) (by omega)
        refine ⟨rest, fun x y => ?_⟩
        rw [sum, add_comm x, ← hr]
        congr 1
        · exact sum_congr fun k hk => by rw [upd]; rw [if_neg (by omega)]
        · simp [upd]
      · by_cases h2 : j = n
        · subst h2
          obtain ⟨rest, hr⟩ := sum_upd g (i := i) (n := j) (by omega)
          refine ⟨rest, fun x y => ?_⟩
          have : upd (upd g j y) i x j = y := by simp [upd, Ne.symm h1]
          rw [sum, this, sum_congr (g' := upd g i x), hr, add_assoc, add_comm rest]
          intro k hk
          simp only [upd]
          rw [if_neg (show ¬ k = j by omega)]
        · obtain ⟨rest, hr⟩ := ih (by omega) (by omega)
          refine ⟨rest + g n, fun x y => ?_⟩
          have : upd (upd g j y) i x n = g n := by simp only [upd]; rw [if_neg (by omega), if_neg (by omega)]
          rw [sum, this, hr, add_assoc, add_assoc]
  obtain ⟨rest, hr⟩ := h1
  refine ⟨rest, ?_, hr⟩
  rw [← hr, upd_same, upd_same]

/-! ### A step of one task leaves the claims of the others alone -/

variable {valid : M → Prop} {N : Nat} {I : Nat → V → M → Prop} {Q : V → M → Prop}

theorem StHolds.congr {f f' : Nat → V} {tr tr' : List V} {post post' : Nat → V → M → Prop} {g : M} {chan : Option Nat} {st : TaskSt V}
    (h : StHolds valid N I f tr post g (postOf Q post chan) chan st) (hf : ∀ m ∈ st.locks, f' m = f m) (htr : chan ≠ none ∨ tr' = tr)
    (hp : ∀ c, chan = some c ∨ c ∈ st.env.map Prod.fst ∨ st.fresh = some c → post' c = post c) :
    StHolds valid N I f' tr' post' g (postOf Q post' chan) chan st := by
  have hQ : postOf Q post' chan = postOf Q post chan := by
    cases chan with
    | none => rfl
    | some c => exact hp c (.inl rfl)
  rw [hQ]
  have hk : ∀ l, (∀ m ∈ l, f' m = f m) → known f' l = known f l := by
    intro l hl
    funext m
    simp only [known]
    by_cases hm : m ∈ l
    · rw [if_pos hm, if_pos hm, hl m hm]
    · rw [if_neg hm, if_neg hm]
  have he : ∀ env : List (Nat × Nat), (∀ c ∈ env.map Prod.fst, post' c = post c) →
      (env.map fun e => post' e.1) = env.map fun e => post e.1 := by
    intro env henv
    exact List.map_congr_left fun e he => henv _ (List.mem_map_of_mem he)
  cases st with
  | run code l env =>
    simp only [StHolds] at h ⊢
    rw [hk l hf, he env fun c hc => hp c (.inr (.inl hc))]
    exact h
  | going n child r c l env =>
    simp only [StHolds] at h ⊢
    rw [hk l hf, he env fun c hc => hp c (.inr (.inl hc)), hp c (.inr (.inr rfl))]
    exact h
  | parked v => exact h
  | closing => exact h
  | over =>
    cases chan with
    | none =>
      rcases htr with h0 | h0
      · exact absurd rfl h0
      · rw [h0]; exact h
    | some c => exact h


variable {ts : List (TaskLocks.Task V)} {f f' : Nat → V} {tr tr' : List V} {post post' : Nat → V → M → Prop} {gs gm gm' : Nat → M}

theorem Log.set (hL : Log valid N I Q ts f tr post gs gm) {i : Nat} {t : TaskLocks.Task V} (ht : ts[i]? = some t) {st : TaskSt V} {x : M}
    (new : StHolds valid N I f' tr' post' x (postOf Q post' t.chan) t.chan st)
    (hf : ∀ (j : Nat) u, ts[j]? = some u → j ≠ i → ∀ m ∈ u.st.locks, f' m = f m)
    (htr : ∀ (j : Nat) u, ts[j]? = some u → j ≠ i → u.chan ≠ none ∨ tr' = tr)
    (hp : ∀ (j : Nat) u, ts[j]? = some u → j ≠ i → ∀ c, u.chan = some c ∨ c ∈ u.st.env.map Prod.fst ∨ u.st.fresh = some c → post' c = post c)
    (free : ∀ m, m < N → m ∉ st.locks → (∀ (j : Nat) u, ts[j]? = some u → j ≠ i → m ∉ u.st.locks) → I m (f' m) (gm' m))
    (held : ∀ m, (m ∈ st.locks ∨ ∃ (j : Nat) (u : TaskLocks.Task V), ts[j]? = some u ∧ j ≠ i ∧ m ∈ u.st.locks) → m < N ∧ gm' m = 0)
    (total : valid (sum (upd gs i x) ts.length + sum gm' N)) :
    Log valid N I Q (ts.set i ⟨t.chan, t.level, st⟩) f' tr' post' (upd gs i x) gm' := by
  refine ⟨fun j u hj => ?_, fun m hm h => ?_, fun m j u hj hl => ?_, by rw [List.length_set]; exact total⟩
  · rcases get_set hj with ⟨rfl, rfl⟩ | ⟨hne, hj⟩
    · simp only [upd, if_true]; exact new
    · simp only [upd, if_neg hne]
      exact (hL.task j u hj).congr (hf j u hj hne) (htr j u hj hne) (hp j u hj hne)
  · exact free m hm (h i _ (set_get ht)) fun j u hj hne => h j u (set_ne hj hne)
  · refine held m ?_
    rcases get_set hj with ⟨rfl, rfl⟩ | ⟨hne, hj⟩
    · exact .inl hl
    · exact .inr ⟨j, u, hj, hne, hl⟩

/-- The claims of one task are replaced. -/
theorem update_total {n i : Nat} {x S : M} (hi : i < n) (h : valid (sum gs n + S)) (hu : Update valid (gs i) x) :
    valid (sum (upd gs i x) n + S) := by
  obtain ⟨rest, h1, h2⟩ := sum_one gs hi
  rw [h1, add_assoc] at h
  rw [h2, add_assoc]
  exact hu _ h

/-- A task moves without locking or unlocking anything. -/
theorem Log.quiet (hL : Log valid N I Q ts f tr post gs gm) {i : Nat} {t : TaskLocks.Task V} (ht : ts[i]? = some t) {st : TaskSt V} {x : M}
    (new : StHolds valid N I f tr' post' x (postOf Q post' t.chan) t.chan st)
    (htr : ∀ (j : Nat) u, ts[j]? = some u → j ≠ i → u.chan ≠ none ∨ tr' = tr)
    (hp : ∀ (j : Nat) u, ts[j]? = some u → j ≠ i → ∀ c, u.chan = some c ∨ c ∈ u.st.env.map Prod.fst ∨ u.st.fresh = some c → post' c = post c)
    (hl : st.locks = t.st.locks) (hu : Update valid (gs i) x) :
    Log valid N I Q (ts.set i ⟨t.chan, t.level, st⟩) f tr' post' (upd gs i x) gm := by
  refine hL.set ht new (fun _ _ _ _ _ _ => rfl) htr hp (fun m hm h1 h2 => hL.free m hm fun j u hj => ?_) (fun m h => ?_)
    (update_total (List.getElem?_eq_some_iff.1 ht).1 hL.total hu)
  · by_cases hji : j = i
    · subst hji; rw [ht] at hj; cases hj; rw [← hl]; exact h1
    · exact h2 j u hj hji
  · rcases h with h | ⟨j, u, hj, _, h⟩
    · exact hL.held m i t ht (hl ▸ h)
    · exact hL.held m j u hj h

theorem Update.refl (g : M) : Update valid g g := fun _ h => h

theorem known_nil (f : Nat → V) : known f [] = fun _ => none := by funext m; simp [known]

theorem known_lock (f : Nat → V) (m : Nat) (l : List Nat) : known f (m :: l) = upd (known f l) m (some (f m)) := by
  funext x
  simp only [known, upd, List.mem_cons]
  by_cases h : x = m
  · simp [h]
  · simp [h]

theorem known_unlock (f : Nat → V) (m : Nat) {l : List Nat} (hn : l.Nodup) : known f (l.erase m) = upd (known f l) m none := by
  funext x
  simp only [known, upd, hn.mem_erase_iff]
  by_cases h : x = m
  · simp [h]
  · simp [h]

theorem known_put (f : Nat → V) (m : Nat) (v : V) {l : List Nat} (hm : m ∈ l) : known (upd f m v) l = upd (known f l) m (some v) := by
  funext x
  simp only [known, upd]
  by_cases h : x = m
  · simp [h, hm]
  · simp [h]

/-! ### Steps -/

section
variable {rank : Nat → Nat} {zero : V} {all : Bool} {s : Config V V} {ts' : List (TaskLocks.Task V)}

theorem Log.did (hL : Log valid N I Q ts f tr post gs gm) (hI : Inv rank zero all ts s tr) {e : Option V} (h : Did ts f e ts' f') :
    ∃ post' gs' gm', Log valid N I Q ts' f' (tr ++ e.toList) post' gs' gm' := by
  have nil : tr ++ (none : Option V).toList = tr := by simp
  have noTr : ∀ (i j : Nat) (u : TaskLocks.Task V), ts[j]? = some u → j ≠ i → u.chan ≠ none ∨ tr = tr := fun _ _ _ _ _ => .inr rfl
  have noPost : ∀ (i j : Nat) (u : TaskLocks.Task V), ts[j]? = some u → j ≠ i →
      ∀ c, u.chan = some c ∨ c ∈ u.st.env.map Prod.fst ∨ u.st.fresh = some c → post c = post c := fun _ _ _ _ _ _ _ => rfl
  -- a task that returns holds nothing
  have retLocks : ∀ {i : Nat} {t : TaskLocks.Task V} {v : V} {l : List Nat} {env : List (Nat × Nat)}, ts[i]? = some t →
      t.st = .run (.ret v) l env → t.st.locks = [] := by
    intro i t v l env ht hst
    have := hI.ok i t ht
    unfold Task.Ok at this
    simp only [hst, Code.Ok] at this
    rw [hst]; exact this.1
  have lt : ∀ {i : Nat} {t : TaskLocks.Task V}, ts[i]? = some t → i < ts.length := fun h => (List.getElem?_eq_some_iff.1 h).1
  cases h with
  | @emit i t v l env ht hst hc =>
    have h := hL.task i t ht
    simp only [hst, StHolds, Holds] at h
    obtain ⟨_, g', hu, hq⟩ := h
    have hi := hI.others i t ht hc
    obtain ⟨t0, h0, _, htr⟩ := hI.main
    subst hi
    rw [ht] at h0; cases h0
    rw [hst] at htr
    have htr : tr = [] := List.eq_nil_of_length_eq_zero htr
    refine ⟨post, upd gs 0 g', gm, hL.quiet ht ?_ (fun j u hj hne => .inl fun hn => hne (hI.others j u hj hn)) (noPost 0)
      (retLocks ht hst).symm hu⟩
    simp only [StHolds, hc]
    refine ⟨v, by simp [htr], ?_⟩
    rw [hc] at hq
    exact hq
  | @make i t n child r c l env ht hst new =>
    have h := hL.task i t ht
    simp only [hst, StHolds, Holds] at h
    obtain ⟨g1, g2, Qc, hu, h1, h2⟩ := h
    have hpost : ∀ (j : Nat) u, ts[j]? = some u → ∀ c', u.chan = some c' ∨ c' ∈ u.st.env.map Prod.fst ∨ u.st.fresh = some c' →
        upd post c Qc c' = post c' := by
      intro j u hj c' h
      simp only [upd]
      rw [if_neg]
      rintro rfl
      obtain ⟨h1, h2, h3⟩ := new j u hj
      exact h.elim h1 (·.elim h2 h3)
    rw [nil]
    refine ⟨upd post c Qc, upd gs i (g1 + g2), gm, hL.quiet ht ?_ (noTr i) (fun j u hj _ => hpost j u hj)
      (by rw [hst]; rfl) hu⟩
    have hQ : postOf Q (upd post c Qc) t.chan = postOf Q post t.chan := by
      cases hc : t.chan with
      | none => rfl
      | some c' => exact hpost i t ht c' (.inl hc)
    have hE : (env.map fun e => upd post c Qc e.1) = env.map fun e => post e.1 :=
      List.map_congr_left fun e he => hpost i t ht _ (.inr (.inl (by rw [hst]; exact List.mem_map_of_mem he)))
    have hc : upd post c Qc c = Qc := by simp [upd]
    simp only [StHolds]
    rw [hQ, hE, hc]
    exact ⟨g1, g2, rfl, h1, h2⟩
  | @go i t n child r c l env ht hst =>
    have h := hL.task i t ht
    simp only [hst, StHolds] at h
    obtain ⟨g1, g2, hg, h1, h2⟩ := h
    rw [nil]
    have hi := lt ht
    have len : ∀ x : TaskSt V, (ts.set i ⟨t.chan, t.level, x⟩).length = ts.length := fun _ => List.length_set ..
    have get : ∀ {k : Nat} {w : TaskLocks.Task V}, (ts.set i ⟨t.chan, t.level, .run r l (env ++ [(c, n)])⟩ ++
        [⟨some c, n, .run child [] []⟩])[k]? = some w → (k = i ∧ w = ⟨t.chan, t.level, .run r l (env ++ [(c, n)])⟩) ∨
        (k = ts.length ∧ w = ⟨some c, n, .run child [] []⟩) ∨ (k ≠ i ∧ k < ts.length ∧ ts[k]? = some w) := by
      intro k w hk
      by_cases hlt : k < ts.length
      · rw [List.getElem?_append_left (by rw [len]; exact hlt)] at hk
        rcases get_set hk with h | ⟨h1, h2⟩
        · exact .inl h
        · exact .inr (.inr ⟨h1, hlt, h2⟩)
      · rw [List.getElem?_append_right (by rw [len]; omega), len] at hk
        have h0 : k - ts.length = 0 := by
          by_contra h0
          rw [List.getElem?_eq_none (by simp only [List.length_cons, List.length_nil]; omega)] at hk
          cases hk
        rw [h0] at hk
        simp only [List.getElem?_cons_zero, Option.some.injEq] at hk
        exact .inr (.inl ⟨by omega, hk.symm⟩)
    have geti : (ts.set i ⟨t.chan, t.level, .run r l (env ++ [(c, n)])⟩ ++ [⟨some c, n, .run child [] []⟩])[i]? =
        some ⟨t.chan, t.level, .run r l (env ++ [(c, n)])⟩ := by
      rw [List.getElem?_append_left (by rw [len]; exact hi)]
      exact set_get ht
    have getk : ∀ {k : Nat} {w : TaskLocks.Task V}, ts[k]? = some w → k ≠ i →
        (ts.set i ⟨t.chan, t.level, .run r l (env ++ [(c, n)])⟩ ++ [⟨some c, n, .run child [] []⟩])[k]? = some w := by
      intro k w hk hne
      rw [List.getElem?_append_left (by rw [len]; exact lt hk)]
      exact set_ne hk hne
    refine ⟨post, upd (upd gs ts.length g1) i g2, gm, fun k w hk => ?_, fun m hm hf => ?_, fun m k w hk hl => ?_, ?_⟩
    · rcases get hk with ⟨rfl, rfl⟩ | ⟨rfl, rfl⟩ | ⟨h3, h4, h5⟩
      · simp only [upd, if_true, StHolds, List.map_append, List.map_cons, List.map_nil]
        exact h2
      · simp only [upd, if_true, if_neg (Nat.ne_of_gt hi), StHolds, List.map_nil, known_nil]
        exact h1
      · simp only [upd, if_neg h3, if_neg (Nat.ne_of_lt h4)]
        exact hL.task k w h5
    · refine hL.free m hm fun k w hk => ?_
      by_cases hki : k = i
      · subst hki
        rw [ht] at hk; cases hk
        have := hf _ _ geti
        rw [hst]; exact this
      · exact hf k w (getk hk hki)
    · rcases get hk with ⟨rfl, rfl⟩ | ⟨rfl, rfl⟩ | ⟨h3, h4, h5⟩
      · exact hL.held m _ t ht (by rw [hst]; exact hl)
      · cases hl
      · exact hL.held m k w h5 hl
    · obtain ⟨rest, h3, h4⟩ := sum_one gs hi
      have : sum (upd (upd gs ts.length g1) i g2) ts.length = g2 + rest := by
        rw [← h4]
        refine sum_congr fun k hk => ?_
        simp only [upd]
        rw [if_neg (Nat.ne_of_lt hk)]
      have h5 : upd (upd gs ts.length g1) i g2 ts.length = g1 := by
        simp only [upd]
        rw [if_neg (Nat.ne_of_gt hi), if_pos trivial]
      have h6 := hL.total
      rw [List.length_append, len]
      simp only [List.length_cons, List.length_nil]
      rw [sum, this, h5]
      rw [h3, hg] at h6
      have : g2 + rest + g1 = g1 + g2 + rest := by
        rw [add_comm (g2 + rest), add_assoc]
      rw [this]; exact h6
  | @park i t v c l env ht hst hc =>
    have h := hL.task i t ht
    simp only [hst, StHolds, Holds] at h
    obtain ⟨_, g', hu, hq⟩ := h
    rw [nil]
    exact ⟨post, upd gs i g', gm, hL.quiet ht hq (noTr i) (noPost i) (retLocks ht hst).symm hu⟩
  | @meet i j t u n r l env e v ht hu hij hst he huc hus =>
    have h := hL.task i t ht
    simp only [hst, StHolds, Holds] at h
    obtain ⟨Qi, h1, h2⟩ := h
    rw [List.getElem?_map, he] at h1
    simp only [Option.map_some, Option.some.injEq] at h1
    subst h1
    -- the result of the sender, with its claims
    have hs : ∃ g', Update valid (gs j) g' ∧ post e.1 v g' := by
      have h := hL.task j u hu
      rw [huc] at h
      rcases hus with ⟨l', env', h3⟩ | h3
      · simp only [h3, StHolds, Holds] at h
        exact h.2
      · simp only [h3, StHolds] at h
        exact ⟨gs j, .refl _, h⟩
    obtain ⟨g', hug, hpost⟩ := hs
    have hul : u.st.locks = [] := by
      rcases hus with ⟨l', env', h3⟩ | h3
      · exact retLocks hu h3
      · rw [h3]; rfl
    rw [nil]
    obtain ⟨rest, h3, h4⟩ := sum_two gs (lt ht) (lt hu) hij
    have hval : valid (gs i + g' + (rest + sum gm N)) := by
      have h5 := hL.total
      rw [h3] at h5
      have h6 : gs i + (gs j + rest) + sum gm N = gs j + (gs i + (rest + sum gm N)) := by
        simp only [add_assoc, add_left_comm]
      rw [h6] at h5
      have h7 := hug _ h5
      have h8 : g' + (gs i + (rest + sum gm N)) = gs i + g' + (rest + sum gm N) := by
        simp only [add_assoc, add_left_comm]
      rw [← h8]; exact h7
    have hnew := h2 v g' hpost ⟨_, hval⟩
    have hui : (ts.set j ⟨u.chan, u.level, .closing⟩)[i]? = some t := set_ne ht hij
    have get : ∀ {k : Nat} {w : TaskLocks.Task V}, ((ts.set j ⟨u.chan, u.level, .closing⟩).set i
        ⟨t.chan, t.level, .run (r v) l (env.eraseIdx n)⟩)[k]? = some w →
        (k = i ∧ w = ⟨t.chan, t.level, .run (r v) l (env.eraseIdx n)⟩) ∨ (k = j ∧ w = ⟨u.chan, u.level, .closing⟩) ∨
        (k ≠ i ∧ k ≠ j ∧ ts[k]? = some w) := by
      intro k w h
      rcases get_set h with h | ⟨h1, h2⟩
      · exact .inl h
      · rcases get_set h2 with h3 | ⟨h3, h4⟩
        · exact .inr (.inl h3)
        · exact .inr (.inr ⟨h1, h3, h4⟩)
    refine ⟨post, upd (upd gs j 0) i (gs i + g'), gm, fun k w hk => ?_, fun m hm hf => ?_, fun m k w hk hl => ?_, ?_⟩
    · rcases get hk with ⟨rfl, rfl⟩ | ⟨rfl, rfl⟩ | ⟨h5, h6, h7⟩
      · simp only [upd, if_true, StHolds]
        rw [← TaskTree.eraseIdx_map]
        exact hnew
      · simp only [upd, if_true, if_neg (Ne.symm hij), StHolds]
      · simp only [upd, if_neg h5, if_neg h6]
        exact hL.task k w h7
    · refine hL.free m hm fun k w hk => ?_
      by_cases hki : k = i
      · subst hki
        rw [ht] at hk; cases hk
        have := hf _ _ (set_get hui)
        rw [hst]; exact this
      · by_cases hkj : k = j
        · subst hkj
          rw [hu] at hk; cases hk
          rw [hul]; simp
        · exact hf k w (set_ne (set_ne hk hkj) hki)
    · rcases get hk with ⟨rfl, rfl⟩ | ⟨rfl, rfl⟩ | ⟨_, _, h7⟩
      · exact hL.held m _ t ht (by rw [hst]; exact hl)
      · cases hl
      · exact hL.held m k w h7 hl
    · rw [List.length_set, List.length_set, h4, zero_add, add_assoc]
      exact hval
  | @close i t ht hst =>
    have h := hL.task i t ht
    simp only [hst, StHolds] at h
    rw [nil]
    refine ⟨post, upd gs i (gs i), gm, hL.quiet ht ?_ (noTr i) (noPost i) (by rw [hst]; rfl) (.refl _)⟩
    have hok := hI.ok i t ht
    unfold Task.Ok at hok
    simp only [hst] at hok
    obtain ⟨c, hc⟩ := Option.isSome_iff_exists.1 hok
    simp only [StHolds, hc]
    exact h
  | @lock i t m r l env ht hst free =>
    have h := hL.task i t ht
    simp only [hst, StHolds, Holds] at h
    obtain ⟨hm, h⟩ := h
    rw [nil]
    have hI0 := hL.free m hm free
    obtain ⟨rs, h1, h2⟩ := sum_one gs (lt ht)
    obtain ⟨rm, h3, h4⟩ := sum_one gm hm
    have hval : valid (gs i + gm m + (rs + rm)) := by
      have h5 := hL.total
      rw [h1, h3] at h5
      have : gs i + rs + (gm m + rm) = gs i + gm m + (rs + rm) := by simp only [add_assoc, add_left_comm]
      rw [← this]; exact h5
    have hnew := h _ _ hI0 ⟨_, hval⟩
    refine ⟨post, upd gs i (gs i + gm m), upd gm m 0, hL.set ht ?_ (fun _ _ _ _ _ _ => rfl) (noTr i) (noPost i)
      (fun x hx h5 h6 => ?_) (fun x h5 => ?_) ?_⟩
    · simp only [StHolds, known_lock]
      exact hnew
    · simp only [TaskSt.locks, List.mem_cons, not_or] at h5
      simp only [upd, if_neg h5.1]
      refine hL.free x hx fun j u hj => ?_
      by_cases hji : j = i
      · subst hji; rw [ht] at hj; cases hj; rw [hst]; exact h5.2
      · exact h6 j u hj hji
    · simp only [upd]
      split
      · next hxm => exact ⟨hxm ▸ hm, rfl⟩
      · next hxm =>
        rcases h5 with h5 | ⟨j, u, hj, _, h5⟩
        · simp only [TaskSt.locks, List.mem_cons] at h5
          exact hL.held x i t ht (by rw [hst]; exact h5.resolve_left hxm)
        · exact hL.held x j u hj h5
    · rw [h2, h4, zero_add]
      have : gs i + gm m + rs + rm = gs i + gm m + (rs + rm) := by simp only [add_assoc]
      rw [this]; exact hval
  | @unlock i t m r l env ht hst hm =>
    have h := hL.task i t ht
    simp only [hst, StHolds, Holds] at h
    obtain ⟨v, g1, g2, hk, hu, hi, h⟩ := h
    have hv : v = f m := by simp only [known, if_pos hm, Option.some.injEq] at hk; exact hk.symm
    subst hv
    have hnd : l.Nodup := by have := hI.locked.nodup i t ht; rw [hst] at this; exact this
    rw [nil]
    have hml : ∀ x, x ∈ l.erase m ↔ x ≠ m ∧ x ∈ l := fun x => hnd.mem_erase_iff
    have hother : ∀ (j : Nat) u, ts[j]? = some u → j ≠ i → m ∉ u.st.locks := by
      intro j u hj hne h5
      exact hne (hI.locked.once j i u t m hj ht h5 (by rw [hst]; exact hm))
    obtain ⟨hmN, h0⟩ := hL.held m i t ht (by rw [hst]; exact hm)
    obtain ⟨rs, h1, h2⟩ := sum_one gs (lt ht)
    obtain ⟨rm, h3, h4⟩ := sum_one gm hmN
    refine ⟨post, upd gs i g2, upd gm m g1, hL.set ht ?_ (fun _ _ _ _ _ _ => rfl) (noTr i) (noPost i)
      (fun x hx h5 h6 => ?_) (fun x h5 => ?_) ?_⟩
    · simp only [StHolds, known_unlock f m hnd]
      exact h
    · simp only [upd]
      split
      · next hxm => subst hxm; exact hi
      · next hxm =>
        refine hL.free x hx fun j u hj => ?_
        by_cases hji : j = i
        · subst hji; rw [ht] at hj; cases hj; rw [hst]
          intro h7
          exact h5 ((hml x).2 ⟨hxm, h7⟩)
        · exact h6 j u hj hji
    · have hxm : x ≠ m := by
        rintro rfl
        rcases h5 with h5 | ⟨j, u, hj, hne, h5⟩
        · exact ((hml x).1 h5).1 rfl
        · exact hother j u hj hne h5
      simp only [upd, if_neg hxm]
      rcases h5 with h5 | ⟨j, u, hj, _, h5⟩
      · exact hL.held x i t ht (by rw [hst]; exact ((hml x).1 h5).2)
      · exact hL.held x j u hj h5
    · have h5 := hL.total
      rw [h1, h3, h0, zero_add, add_assoc] at h5
      have h6 := hu _ h5
      rw [h2, h4]
      have : g2 + rs + (g1 + rm) = g1 + g2 + (rs + rm) := by
        rw [add_comm g1 g2]; simp only [add_assoc, add_left_comm]
      rw [this]; exact h6
  | @get i t m r l env ht hst hm =>
    have h := hL.task i t ht
    simp only [hst, StHolds, Holds] at h
    obtain ⟨v, hk, h⟩ := h
    have hv : v = f m := by simp only [known, if_pos hm, Option.some.injEq] at hk; exact hk.symm
    subst hv
    rw [nil]
    exact ⟨post, upd gs i (gs i), gm, hL.quiet ht h (noTr i) (noPost i) (by rw [hst]; rfl) (.refl _)⟩
  | @put i t m v r l env ht hst hm =>
    have h := hL.task i t ht
    simp only [hst, StHolds, Holds] at h
    obtain ⟨_, h⟩ := h
    rw [nil]
    have hother : ∀ (j : Nat) u, ts[j]? = some u → j ≠ i → m ∉ u.st.locks := by
      intro j u hj hne h5
      exact hne (hI.locked.once j i u t m hj ht h5 (by rw [hst]; exact hm))
    refine ⟨post, upd gs i (gs i), gm, hL.set ht ?_ (fun j u hj hne x hx => ?_) (noTr i) (noPost i)
      (fun x hx h5 h6 => ?_) (fun x h5 => ?_) ?_⟩
    · simp only [StHolds, known_put f m v hm]
      exact h
    · simp only [upd]
      rw [if_neg]
      rintro rfl
      exact hother j u hj hne hx
    · have hxm : x ≠ m := by rintro rfl; exact h5 hm
      simp only [upd, if_neg hxm]
      refine hL.free x hx fun j u hj => ?_
      by_cases hji : j = i
      · subst hji; rw [ht] at hj; cases hj; rw [hst]; exact h5
      · exact h6 j u hj hji
    · rcases h5 with h5 | ⟨j, u, hj, _, h5⟩
      · exact hL.held x i t ht (by rw [hst]; exact h5)
      · exact hL.held x j u hj h5
    · rw [upd_same]; exact hL.total

theorem run_log {base : Nat} {code : Code V} {g0 : M} (hs : code.Ok rank all base [] [])
    (hh : Holds valid N I code (fun _ => none) [] g0 Q) (hi : ∀ m, m < N → I m (f m) (gm m)) (hv : valid (g0 + sum gm N))
    (h : Run (program zero f code) tr s) : ∃ ts post gs gm', Inv rank zero all ts s tr ∧ Log valid N I Q ts s.vars tr post gs gm' := by
  induction h with
  | nil =>
    refine ⟨_, fun _ _ _ => True, fun _ => g0, gm, initial f hs, fun i t ht => ?_, fun m hm _ => hi m hm, fun m i t ht hl => ?_, ?_⟩
    · cases i with
      | zero =>
        simp only [List.getElem?_cons_zero, Option.some.injEq] at ht
        subst ht
        simp only [StHolds, known_nil]
        exact hh
      | succ i => simp at ht
    · have := List.mem_singleton.1 (List.mem_of_getElem? ht)
      subst this
      cases hl
    · simp only [List.length_cons, List.length_nil, sum]
      rw [zero_add]; exact hv
  | step _ st ih =>
    obtain ⟨ts, post, gs, gm', hI, hL⟩ := ih
    obtain ⟨ts', hI', _, hd⟩ := hI.step st
    obtain ⟨post', gs', gm'', hL'⟩ := hL.did hI hd
    exact ⟨ts', post', gs', gm'', hI', hL'⟩

theorem sum_zero {gs : Nat → M} {n : Nat} (h : ∀ i, 0 < i → i < n + 1 → gs i = 0) : sum gs (n + 1) = gs 0 := by
  induction n with
  | zero => simp [sum]
  | succ n ih =>
    rw [sum, h (n + 1) (by omega) (by omega), add_zero]
    exact ih fun i h1 h2 => h i h1 (by omega)
end
end TaskLogic

open TaskLogic
variable {V M : Type} [AddCommMonoid M]

/-! ### The theorems -/

/-- C165: suppose that main, by itself, is seen to give results satisfying `Q` (`Holds`), that the values of the Mutexes satisfy their
invariants `I` at the start, and that no deadlock can be (`Code.Ok` for some ranking, see C164).  Then under every schedule nothing
panics and the program ends, and whenever nothing can go on all goroutines have ended, main has shown one result, the result
satisfies `Q`, the values of all Mutexes satisfy their invariants, and all claims together are valid. -/
theorem C165_total {valid : M → Prop} {N : Nat} {I : Nat → V → M → Prop} {Q : V → M → Prop} (rank : Nat → Nat) (zero : V) {f : Nat → V}
    {base : Nat} {code : Code V} {g0 : M} {gm : Nat → M} (hs : code.Ok rank true base [] [])
    (hh : Holds valid N I code (fun _ => none) [] g0 Q) (hi : ∀ m, m < N → I m (f m) (gm m)) (hv : valid (g0 + sum gm N)) :
    Acc (fun t s : Config V V => ∃ e, Step s e t) (program zero f code) ∧
    ∀ {tr : List V} {s : Config V V}, Run (program zero f code) tr s → s.crashed = false ∧ ((∃ e t, Step s e t) ∨
      ((∀ p ∈ s.procs, p = .done) ∧ ∃ v g gm', tr = [v] ∧ Q v g ∧ (∀ m, m < N → I m (s.vars m) (gm' m)) ∧
        valid (g + sum gm' N))) := by
  refine ⟨(initial (all := true) f hs).acc, fun {tr s} h => ?_⟩
  obtain ⟨ts, post, gs, gm', hI, hL⟩ := run_log hs hh hi hv h
  refine ⟨hI.alive, ?_⟩
  by_cases hn : ∃ e t, Step s e t
  · exact .inl hn
  refine .inr ?_
  have hover : ∀ (i : Nat) t, ts[i]? = some t → t.st = .over := fun i t ht => by
    rcases (hI.stopped hn).2 i t ht with h | ⟨_, h⟩
    · exact h
    · cases h
  obtain ⟨t0, h0, hc0, _⟩ := hI.main
  have hm := hL.task 0 t0 h0
  simp only [hover 0 t0 h0, hc0, StHolds, postOf] at hm
  obtain ⟨v, htr, hq⟩ := hm
  refine ⟨((C164_all_end rank zero f hs h).resolve_left hn).2.2, v, gs 0, gm', htr, hq, fun m hm => hL.free m hm fun i t ht => ?_, ?_⟩
  · rw [hover i t ht]; simp [TaskSt.locks]
  · have hlen := (List.getElem?_eq_some_iff.1 h0).1
    have := hL.total
    rw [show ts.length = ts.length - 1 + 1 by omega, sum_zero] at this
    · exact this
    · intro i h1 h2
      have hlt : i < ts.length := by omega
      have ht := List.getElem?_eq_getElem hlt
      have := hL.task i _ ht
      simp only [hover i _ ht] at this
      cases hc : ts[i].chan with
      | none => exact absurd (hI.others i _ ht hc) (by omega)
      | some c => simp only [hc, StHolds] at this; exact this

/-- C165: at every moment, also while tasks go on, the value of a Mutex that is not locked satisfies its invariant. -/
theorem C165_unlocked {valid : M → Prop} {N : Nat} {I : Nat → V → M → Prop} {Q : V → M → Prop} (rank : Nat → Nat) (zero : V) {f : Nat → V}
    {base : Nat} {code : Code V} {g0 : M} {gm : Nat → M} (hs : code.Ok rank false base [] [])
    (hh : Holds valid N I code (fun _ => none) [] g0 Q) (hi : ∀ m, m < N → I m (f m) (gm m)) (hv : valid (g0 + sum gm N))
    {tr : List V} {s : Config V V} (h : Run (program zero f code) tr s) {m : Nat} (hm : m < N) (hl : s.locks m = false) :
    ∃ g, I m (s.vars m) g ∧ Possible valid g := by
  obtain ⟨ts, post, gs, gm', hI, hL⟩ := run_log hs hh hi hv h
  refine ⟨gm' m, hL.free m hm fun i t ht hmt => ?_, ?_⟩
  · rw [(hI.locked.iff m).2 ⟨i, t, ht, hmt⟩] at hl
    cases hl
  · obtain ⟨rest, h1, _⟩ := sum_one gm' hm
    have := hL.total
    rw [h1, add_left_comm] at this
    exact ⟨_, this⟩

/-- C165: every result shown satisfies `Q`, also if some futures are never awaited. -/
theorem C165_shown {valid : M → Prop} {N : Nat} {I : Nat → V → M → Prop} {Q : V → M → Prop} (rank : Nat → Nat) (zero : V) {f : Nat → V}
    {base : Nat} {code : Code V} {g0 : M} {gm : Nat → M} (hs : code.Ok rank false base [] [])
    (hh : Holds valid N I code (fun _ => none) [] g0 Q) (hi : ∀ m, m < N → I m (f m) (gm m)) (hv : valid (g0 + sum gm N))
    {tr : List V} {s : Config V V} (h : Run (program zero f code) tr s) {v : V} (hm : v ∈ tr) : ∃ g, Q v g ∧ Possible valid g := by
  obtain ⟨ts, post, gs, gm', hI, hL⟩ := run_log hs hh hi hv h
  obtain ⟨t0, h0, hc0, hlen⟩ := hI.main
  have h1 := hL.task 0 t0 h0
  have hsent : t0.st.sent = true := by
    cases hs : t0.st.sent with
    | true => rfl
    | false =>
      rw [hs] at hlen
      rw [List.eq_nil_of_length_eq_zero hlen] at hm
      cases hm
  have hok := hI.ok 0 t0 h0
  unfold Task.Ok at hok
  cases hst : t0.st with
  | over =>
    simp only [hst, hc0, StHolds, postOf] at h1
    obtain ⟨w, rfl, hq⟩ := h1
    rw [List.mem_singleton] at hm
    subst hm
    obtain ⟨rest, h2, _⟩ := sum_one gs (List.getElem?_eq_some_iff.1 h0).1
    have := hL.total
    rw [h2, add_assoc] at this
    exact ⟨gs 0, hq, _, this⟩
  | closing => simp only [hst, hc0] at hok; cases hok
  | run _ _ _ => rw [hst] at hsent; cases hsent
  | going _ _ _ _ _ _ => rw [hst] at hsent; cases hsent
  | parked _ => rw [hst] at hsent; cases hsent

/-! ### Programs

Counting: the claims are integers that add up to zero; the Mutex claims its value, a task claims minus the number of times it has
counted. -/

def fibs : Nat → Nat
  | 0 => 0
  | 1 => 1
  | n + 2 => fibs n + fibs (n + 1)
/-- The number of tasks of `fibCounted n`. -/
def calls : Nat → Nat
  | 0 => 1
  | 1 => 1
  | n + 2 => calls n + calls (n + 1) + 1

/-- All claims together are zero. -/
def ZeroSum (g : Int) : Prop := g = 0
/-- The Mutex claims its value. -/
def Counter (_ v : Nat) (g : Int) : Prop := g = (v : Int)

theorem counted_holds {k : Code Nat} {posts : List (Nat → Int → Prop)} {g : Int} {Q : Nat → Int → Prop}
    (h : Holds ZeroSum 1 Counter k (fun _ => none) posts (g - 1) Q) : Holds ZeroSum 1 Counter (counted k) (fun _ => none) posts g Q := by
  refine ⟨by decide, fun v g' hg _ => ⟨v, by simp [upd], by simp [upd], v + 1, (v : Int) + 1, g - 1, by simp [upd], ?_, by simp [Counter], ?_⟩⟩
  · intro f hf
    simp only [ZeroSum, Counter] at hf hg ⊢
    omega
  · have : upd (upd (upd (fun _ => none) 0 (some v)) 0 (some (v + 1))) 0 none = (fun _ => (none : Option Nat)) := by
      funext x; simp only [upd]; split <;> rfl
    rw [this]; exact h

theorem fibCounted_holds : (n : Nat) → Holds ZeroSum 1 Counter (fibCounted n) (fun _ => none) [] 0
    (fun v g => v = fibs n ∧ g = -(calls n : Int))
  | 0 => counted_holds ⟨rfl, _, fun _ h => h, rfl, rfl⟩
  | 1 => counted_holds ⟨rfl, _, fun _ h => h, rfl, rfl⟩
  | n + 2 => by
    refine counted_holds ⟨0, -1, _, fun _ h => by simpa using h, fibCounted_holds n, 0, -1, _, fun _ h => by simpa using h,
      fibCounted_holds (n + 1), _, rfl, ?_⟩
    rintro a ga ⟨rfl, rfl⟩ _
    refine ⟨_, rfl, ?_⟩
    rintro b gb ⟨rfl, rfl⟩ _
    refine ⟨rfl, _, fun _ h => h, ?_, ?_⟩
    · rw [fibs]; omega
    · rw [calls]; push_cast; omega

/-- C165: the tasks that compute a Fibonacci number and count themselves in a shared Mutex: under every schedule the result is the
Fibonacci number, and the Mutex ends with the number of tasks. -/
theorem C165_fib (n : Nat) {tr : List Nat} {s : Config Nat Nat} (h : Run (program 0 (fun _ => 0) (fibCounted n)) tr s) :
    s.crashed = false ∧ ((∃ e t, Step s e t) ∨ (tr = [fibs n] ∧ s.vars 0 = calls n ∧ ∀ p ∈ s.procs, p = .done)) := by
  obtain ⟨h1, h2⟩ := (C165_total id 0 (fibCounted_ok id true n) (fibCounted_holds n) (f := fun _ => 0) (gm := fun _ => (0 : Int))
    (fun _ _ => rfl) rfl).2 h
  refine ⟨h1, h2.imp_right fun ⟨h3, v, g, gm, h4, ⟨h8, h9⟩, h6, h7⟩ => ⟨h8 ▸ h4, ?_, h3⟩⟩
  have := h6 0 (by decide)
  simp only [sum, ZeroSum, Counter] at this h7
  omega

example : fibs 10 = 55 ∧ calls 10 = 177 := by decide +kernel

/-! Tickets: the Mutex holds the next number; it claims that number and all greater ones, a task that took a number claims it, and no
number is claimed twice. -/

/-- A task that takes a number. -/
def ticket : Code Nat := .lock 0 (.get 0 fun t => .put 0 (t + 1) (.unlock 0 (.ret t)))
/-- Await the `n` futures held, and tell whether the numbers are different. -/
def compare : Nat → List Nat → Code Nat
  | 0, acc => .ret (if acc.Nodup then 1 else 0)
  | n + 1, acc => .await 0 fun t => compare n (t :: acc)
/-- Spawn `n` tasks more, when `k` are there. -/
def tickets : Nat → Nat → Code Nat
  | 0, k => compare k []
  | n + 1, k => .spawn ticket (tickets n (k + 1))

theorem ticket_ok (rank : Nat → Nat) (all : Bool) : ticket.Ok rank all 0 [] [] := by
  simp [ticket, Code.Ok]
theorem compare_ok (rank : Nat → Nat) (all : Bool) : ∀ n acc, (compare n acc).Ok rank all 0 [] (List.replicate n 0)
  | 0, _ => ⟨rfl, fun _ => rfl⟩
  | n + 1, acc => ⟨0, rfl, Nat.le_refl _, by simp, fun v => compare_ok rank all n (v :: acc)⟩
theorem tickets_ok (rank : Nat → Nat) (all : Bool) : ∀ n k, (tickets n k).Ok rank all 0 [] (List.replicate k 0)
  | 0, k => compare_ok rank all k []
  | n + 1, k => ⟨0, ticket_ok rank all, by rw [← List.replicate_succ']; exact tickets_ok rank all n (k + 1)⟩

/-- No number is claimed twice. -/
def Once (g : Nat → Nat) : Prop := ∀ x, g x ≤ 1
def Next (_ v : Nat) (g : Nat → Nat) : Prop := g = fun x => if v ≤ x then 1 else 0
def Mine (t : Nat) (g : Nat → Nat) : Prop := g = fun x => if x = t then 1 else 0

theorem ticket_holds : Holds Once 1 Next ticket (fun _ => none) [] 0 Mine := by
  refine ⟨by decide, fun v g' hg _ => ⟨v, by simp [upd], by simp [upd], v + 1, _, fun x => if x = v then 1 else 0, by simp [upd], ?_, rfl, ?_, _,
    fun _ h => h, rfl⟩⟩
  · intro f hf x
    have := hf x
    rw [Next] at hg
    subst hg
    simp only [Pi.add_apply, zero_add] at this ⊢
    split at this <;> split <;> split <;> omega
  · funext x; simp only [upd]; split <;> rfl

theorem compare_holds : ∀ n (acc : List Nat), acc.Nodup → Holds Once 1 Next (compare n acc) (fun _ => none) (List.replicate n Mine)
    (fun x => acc.count x) (fun v _ => v = 1)
  | 0, acc, h => ⟨rfl, _, fun _ h => h, by rw [if_pos h]⟩
  | n + 1, acc, h => by
    refine ⟨Mine, rfl, fun t g' hg hp => ?_⟩
    rw [Mine] at hg
    subst hg
    have hc : ((fun x => acc.count x) + fun x => if x = t then 1 else 0) = fun x => (t :: acc).count x := by
      funext x
      simp only [Pi.add_apply, List.count_cons, beq_iff_eq, eq_comm (a := x)]
    obtain ⟨f, hf⟩ := hp
    have ht : t ∉ acc := by
      intro hm
      have h1 := List.count_pos_iff.2 hm
      have h2 := hf t
      simp only [Pi.add_apply, if_true] at h2
      omega
    rw [hc]
    exact compare_holds n (t :: acc) (List.nodup_cons.2 ⟨ht, h⟩)

theorem tickets_holds : ∀ n k, Holds Once 1 Next (tickets n k) (fun _ => none) (List.replicate k Mine) 0 (fun v _ => v = 1)
  | 0, k => compare_holds k [] List.nodup_nil
  | n + 1, k => ⟨0, 0, Mine, fun _ h => by simpa using h, ticket_holds, by
    rw [← List.replicate_succ']; exact tickets_holds n (k + 1)⟩

/-- C165: any number of tasks that take numbers from a Mutex get different numbers, under every schedule. -/
theorem C165_tickets (n start : Nat) {tr : List Nat} {s : Config Nat Nat} (h : Run (program 0 (fun _ => start) (tickets n 0)) tr s) :
    s.crashed = false ∧ ((∃ e t, Step s e t) ∨ (tr = [1] ∧ ∀ p ∈ s.procs, p = .done)) := by
  obtain ⟨h1, h2⟩ := (C165_total id 0 (tickets_ok id true n 0) (tickets_holds n 0) (f := fun _ => start)
    (gm := fun _ => (fun x => if start ≤ x then 1 else 0 : Nat → Nat)) (fun _ _ => rfl) (fun x => by
      simp only [sum, Pi.add_apply, Pi.zero_apply, zero_add]
      split <;> omega)).2 h
  exact ⟨h1, h2.imp_right fun ⟨h3, v, g, gm, h4, h5, _⟩ => ⟨h5 ▸ h4, h3⟩⟩

end Gost
