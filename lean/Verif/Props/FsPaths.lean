import Verif.Props.FsOutcome
/-
Property C144 for all paths: relative ones, with `.` and `..`, and through symbolic links.
-/
namespace Gost
open Os Fs Spec

namespace Spec
/-- Where a sequence of names leads from inode `cur`, in `k` steps: `.` stays, `..` goes up, a name goes to the entry, a
symbolic link stands for the names in it.  If `f` is false, a link that is the last name is not followed. -/
inductive Leads (fs : FS) (f : Bool) : Nat → List Name → Nat → Nat → Prop where
  | here (cur : Nat) : Leads fs f cur [] 0 cur
  | dot {cur k x : Nat} {rest : List Name} (hd : IsDir fs cur) (h : Leads fs f cur rest k x) : Leads fs f cur (dot :: rest) (k + 1) x
  | up {cur u k x : Nat} {es : List (Name × Nat)} {rest : List Name} (hd : fs.nodes[cur]? = some (.dir u es))
      (h : Leads fs f u rest k x) : Leads fs f cur (dotdot :: rest) (k + 1) x
  | entry {cur i k x : Nat} {n : Name} {rest : List Name} (h1 : n ≠ Os.dot) (h2 : n ≠ dotdot) (hi : inode fs cur n = some i)
      (hl : ¬ IsLink fs i) (h : Leads fs f i rest k x) : Leads fs f cur (n :: rest) (k + 1) x
  | link {cur i k x : Nat} {n : Name} {rest : List Name} {t : Path} (h1 : n ≠ Os.dot) (h2 : n ≠ dotdot)
      (hi : inode fs cur n = some i) (hl : fs.nodes[i]? = some (.link t)) (hf : rest ≠ [] ∨ f = true)
      (h : Leads fs f (if t.abs then 0 else cur) (t.names ++ rest) k x) : Leads fs f cur (n :: rest) (k + 1) x
  | last {cur i : Nat} {n : Name} (h1 : n ≠ Os.dot) (h2 : n ≠ dotdot) (hi : inode fs cur n = some i) (hl : IsLink fs i)
      (hf : f = false) : Leads fs f cur [n] 1 i

/-- Where a path starts. -/
def start (fs : FS) (p : Path) : Nat := if p.abs then 0 else fs.cwd
/-- The path leads to inode `i`; links are followed to the end if `f` is true. -/
def LeadsTo (fs : FS) (f : Bool) (p : Path) (i : Nat) : Prop :=
  (p.abs = true ∨ p.names ≠ []) ∧ ∃ k ≤ fs.limit + 1, Leads fs f (start fs p) p.names k i
/-- The path names an entry `n`, which need not be there, of the directory `d`. -/
def Slot (fs : FS) (p : Path) (d : Nat) (n : Name) : Prop :=
  ∃ pd, p.names = pd ++ [n] ∧ n ≠ dot ∧ n ≠ dotdot ∧ (∃ k ≤ fs.limit, Leads fs true (start fs p) pd k d) ∧ IsDir fs d
/-- The names lead to an entry `m` of the directory `d` that is not there: through links, if the entry it names is a link. -/
inductive Missing (fs : FS) (f : Bool) : Nat → List Name → Nat → Nat → Name → Prop where
  | here {cur : Nat} {n : Name} (h1 : n ≠ Os.dot) (h2 : n ≠ dotdot) (hd : IsDir fs cur) (hi : inode fs cur n = none) :
      Missing fs f cur [n] 1 cur n
  | dot {cur k d : Nat} {m : Name} {rest : List Name} (hd : IsDir fs cur) (h : Missing fs f cur rest k d m) :
      Missing fs f cur (dot :: rest) (k + 1) d m
  | up {cur u k d : Nat} {m : Name} {es : List (Name × Nat)} {rest : List Name} (hd : fs.nodes[cur]? = some (.dir u es))
      (h : Missing fs f u rest k d m) : Missing fs f cur (dotdot :: rest) (k + 1) d m
  | entry {cur i k d : Nat} {n m : Name} {rest : List Name} (h1 : n ≠ Os.dot) (h2 : n ≠ dotdot) (hi : inode fs cur n = some i)
      (hl : ¬ IsLink fs i) (h : Missing fs f i rest k d m) : Missing fs f cur (n :: rest) (k + 1) d m
  | link {cur i k d : Nat} {n m : Name} {rest : List Name} {t : Path} (h1 : n ≠ Os.dot) (h2 : n ≠ dotdot)
      (hi : inode fs cur n = some i) (hl : fs.nodes[i]? = some (.link t)) (hf : rest ≠ [] ∨ f = true)
      (h : Missing fs f (if t.abs then 0 else cur) (t.names ++ rest) k d m) : Missing fs f cur (n :: rest) (k + 1) d m
/-- The path leads to an entry that is not there. -/
def MissingAt (fs : FS) (p : Path) (d : Nat) (n : Name) : Prop :=
  ∃ k ≤ fs.limit + 1, Missing fs true (start fs p) p.names k d n
end Spec

namespace Fs

theorem walk_notDir {fs : FS} {f : Bool} {fuel cur : Nat} {n : Name} {rest : List Name} (hD : ¬ IsDir fs cur) :
    walk fs f (fuel + 1) cur (n :: rest) = .fail .ENOTDIR := by
  rw [walk]
  match hc : fs.nodes[cur]? with
  | some (.dir u es) => exact absurd ⟨u, es, hc⟩ hD
  | some (.file c) => rfl
  | some (.link c) => rfl
  | none => rfl

theorem walk_leads {fs : FS} {f : Bool} {fuel cur x : Nat} {names : List Name} :
    walk fs f fuel cur names = .found x ↔ ∃ k ≤ fuel, Leads fs f cur names k x := by
  induction fuel generalizing cur names with
  | zero =>
    cases names with
    | nil =>
      rw [walk]
      constructor
      · intro h; cases h; exact ⟨0, Nat.le_refl 0, .here _⟩
      · rintro ⟨k, hk, h⟩; cases h; rfl
    | cons n rest =>
      rw [walk]
      constructor
      · intro h; cases h
      · rintro ⟨k, hk, h⟩
        cases h <;> omega
  | succ fuel ih =>
    cases names with
    | nil =>
      rw [walk]
      constructor
      · intro h; cases h; exact ⟨0, Nat.zero_le _, .here _⟩
      · rintro ⟨k, hk, h⟩; cases h; rfl
    | cons n rest =>
      by_cases hD : IsDir fs cur
      · obtain ⟨u, es, hc⟩ := hD
        have hD : IsDir fs cur := ⟨u, es, hc⟩
        rw [walk, hc]
        simp only
        by_cases h1 : n = dot
        · subst h1
          rw [if_pos rfl, ih]
          constructor
          · rintro ⟨k, hk, h⟩
            exact ⟨k + 1, by omega, .dot hD h⟩
          · rintro ⟨k, hk, h⟩
            cases h with
            | dot _ h => exact ⟨_, by omega, h⟩
            | entry h1 => exact absurd rfl h1
            | link h1 => exact absurd rfl h1
            | last h1 => exact absurd rfl h1
        · rw [if_neg h1]
          by_cases h2 : n = dotdot
          · subst h2
            rw [if_pos rfl, ih]
            constructor
            · rintro ⟨k, hk, h⟩
              exact ⟨k + 1, by omega, .up hc h⟩
            · rintro ⟨k, hk, h⟩
              generalize hn : dotdot = m at h
              cases h with
              | dot _ h => exact absurd hn.symm (by decide)
              | up hd h =>
                rw [hc] at hd
                cases hd
                exact ⟨_, by omega, h⟩
              | entry _ h2 => exact absurd hn.symm h2
              | link _ h2 => exact absurd hn.symm h2
              | last _ h2 => exact absurd hn.symm h2
          · rw [if_neg h2]
            have hen := entry_of hc n
            match hl : es.lookup n with
            | none =>
              rw [hl] at hen
              simp only
              constructor
              · intro h
                split at h <;> cases h
              · rintro ⟨k, hk, h⟩
                cases h with
                | dot => exact absurd rfl h1
                | up => exact absurd rfl h2
                | entry _ _ hi => rw [hen] at hi; cases hi
                | link _ _ hi => rw [hen] at hi; cases hi
                | last _ _ hi => rw [hen] at hi; cases hi
            | some i =>
              rw [hl] at hen
              simp only
              have plain : ¬ IsLink fs i → (walk fs f fuel i rest = .found x ↔ ∃ k ≤ fuel + 1, Leads fs f cur (n :: rest) k x) := by
                intro hnl
                rw [ih]
                constructor
                · rintro ⟨k, hk, h⟩
                  exact ⟨k + 1, by omega, .entry h1 h2 hen hnl h⟩
                · rintro ⟨k, hk, h⟩
                  cases h with
                  | dot => exact absurd rfl h1
                  | up => exact absurd rfl h2
                  | entry _ _ hi _ h =>
                    rw [hen] at hi; cases hi
                    exact ⟨_, by omega, h⟩
                  | link _ _ hi hlk => rw [hen] at hi; cases hi; exact absurd ⟨_, hlk⟩ hnl
                  | last _ _ hi hlk => rw [hen] at hi; cases hi; exact absurd hlk hnl
              match hz : fs.nodes[i]? with
              | some (.file c) => exact plain (by rintro ⟨t, ht⟩; rw [hz] at ht; cases ht)
              | some (.dir a b) => exact plain (by rintro ⟨t, ht⟩; rw [hz] at ht; cases ht)
              | none => exact plain (by rintro ⟨t, ht⟩; rw [hz] at ht; cases ht)
              | some (.link t) =>
                simp only
                by_cases hr : rest = [] ∧ f = false
                · rw [if_pos hr]
                  obtain ⟨rfl, rfl⟩ := hr
                  constructor
                  · intro h; cases h
                    exact ⟨1, by omega, .last h1 h2 hen ⟨t, hz⟩ rfl⟩
                  · rintro ⟨k, hk, h⟩
                    cases h with
                    | dot => exact absurd rfl h1
                    | up => exact absurd rfl h2
                    | entry _ _ hi hl => rw [hen] at hi; cases hi; exact absurd ⟨_, hz⟩ hl
                    | link _ _ _ _ hf =>
                      rcases hf with hf | hf
                      · exact absurd rfl hf
                      · cases hf
                    | last _ _ hi => rw [hen] at hi; cases hi; rfl
                · rw [if_neg hr, ih]
                  have hr' : rest ≠ [] ∨ f = true := by
                    by_cases h : rest = []
                    · refine .inr ?_
                      cases f with
                      | true => rfl
                      | false => exact absurd ⟨h, rfl⟩ hr
                    · exact .inl h
                  constructor
                  · rintro ⟨k, hk, h⟩
                    exact ⟨k + 1, by omega, .link h1 h2 hen hz hr' h⟩
                  · rintro ⟨k, hk, h⟩
                    cases h with
                    | dot => exact absurd rfl h1
                    | up => exact absurd rfl h2
                    | entry _ _ hi hl => rw [hen] at hi; cases hi; exact absurd ⟨_, hz⟩ hl
                    | link _ _ hi hl _ h =>
                      rw [hen] at hi; cases hi
                      rw [hz] at hl; cases hl
                      exact ⟨_, by omega, h⟩
                    | last _ _ _ _ hf => exact absurd ⟨rfl, hf⟩ hr
      · rw [walk_notDir hD]
        constructor
        · intro h; cases h
        · rintro ⟨k, hk, h⟩
          cases h with
          | dot hd => exact absurd hd hD
          | up hd => exact absurd ⟨_, _, hd⟩ hD
          | entry _ _ hi => exact absurd (entry_dir hi) hD
          | link _ _ hi => exact absurd (entry_dir hi) hD
          | last _ _ hi => exact absurd (entry_dir hi) hD

theorem walk_missing {fs : FS} {f : Bool} {fuel cur d : Nat} {m : Name} {names : List Name} :
    walk fs f fuel cur names = .absent d m ↔ ∃ k ≤ fuel, Missing fs f cur names k d m := by
  induction fuel generalizing cur names with
  | zero =>
    cases names with
    | nil =>
      rw [walk]
      constructor
      · intro h; cases h
      · rintro ⟨k, hk, h⟩; cases h
    | cons n rest =>
      rw [walk]
      constructor
      · intro h; cases h
      · rintro ⟨k, hk, h⟩
        cases h <;> omega
  | succ fuel ih =>
    cases names with
    | nil =>
      rw [walk]
      constructor
      · intro h; cases h
      · rintro ⟨k, hk, h⟩; cases h
    | cons n rest =>
      by_cases hD : IsDir fs cur
      · obtain ⟨u, es, hc⟩ := hD
        have hD : IsDir fs cur := ⟨u, es, hc⟩
        rw [walk, hc]
        simp only
        by_cases h1 : n = dot
        · subst h1
          rw [if_pos rfl, ih]
          constructor
          · rintro ⟨k, hk, h⟩
            exact ⟨k + 1, by omega, .dot hD h⟩
          · rintro ⟨k, hk, h⟩
            cases h with
            | dot _ h => exact ⟨_, by omega, h⟩
            | here h1 => exact absurd rfl h1
            | entry h1 => exact absurd rfl h1
            | link h1 => exact absurd rfl h1
        · rw [if_neg h1]
          by_cases h2 : n = dotdot
          · subst h2
            rw [if_pos rfl, ih]
            constructor
            · rintro ⟨k, hk, h⟩
              exact ⟨k + 1, by omega, .up hc h⟩
            · rintro ⟨k, hk, h⟩
              generalize hn : dotdot = m at h
              cases h with
              | dot _ h => exact absurd hn.symm (by decide)
              | up hd h =>
                rw [hc] at hd
                cases hd
                exact ⟨_, by omega, h⟩
              | here _ h2 => exact absurd hn.symm h2
              | entry _ h2 => exact absurd hn.symm h2
              | link _ h2 => exact absurd hn.symm h2
          · rw [if_neg h2]
            have hen := entry_of hc n
            match hl : es.lookup n with
            | none =>
              rw [hl] at hen
              simp only
              constructor
              · intro h
                by_cases hr : rest = []
                · rw [if_pos hr] at h
                  cases h
                  subst hr
                  exact ⟨1, by omega, .here h1 h2 hD hen⟩
                · rw [if_neg hr] at h
                  cases h
              · rintro ⟨k, hk, h⟩
                cases h with
                | dot => exact absurd rfl h1
                | up => exact absurd rfl h2
                | here => rfl
                | entry _ _ hi => rw [hen] at hi; cases hi
                | link _ _ hi => rw [hen] at hi; cases hi
            | some i =>
              rw [hl] at hen
              simp only
              have plain : ¬ IsLink fs i → (walk fs f fuel i rest = .absent d m ↔ ∃ k ≤ fuel + 1, Missing fs f cur (n :: rest) k d m) := by
                intro hnl
                rw [ih]
                constructor
                · rintro ⟨k, hk, h⟩
                  exact ⟨k + 1, by omega, .entry h1 h2 hen hnl h⟩
                · rintro ⟨k, hk, h⟩
                  cases h with
                  | dot => exact absurd rfl h1
                  | up => exact absurd rfl h2
                  | here _ _ _ hi => rw [hen] at hi; cases hi
                  | entry _ _ hi _ h =>
                    rw [hen] at hi; cases hi
                    exact ⟨_, by omega, h⟩
                  | link _ _ hi hlk => rw [hen] at hi; cases hi; exact absurd ⟨_, hlk⟩ hnl
              match hz : fs.nodes[i]? with
              | some (.file c) => exact plain (by rintro ⟨t, ht⟩; rw [hz] at ht; cases ht)
              | some (.dir a b) => exact plain (by rintro ⟨t, ht⟩; rw [hz] at ht; cases ht)
              | none => exact plain (by rintro ⟨t, ht⟩; rw [hz] at ht; cases ht)
              | some (.link t) =>
                simp only
                by_cases hr : rest = [] ∧ f = false
                · rw [if_pos hr]
                  obtain ⟨rfl, rfl⟩ := hr
                  constructor
                  · intro h; cases h
                  · rintro ⟨k, hk, h⟩
                    cases h with
                    | dot => exact absurd rfl h1
                    | up => exact absurd rfl h2
                    | here _ _ _ hi => rw [hen] at hi; cases hi
                    | entry _ _ hi hl => rw [hen] at hi; cases hi; exact absurd ⟨_, hz⟩ hl
                    | link _ _ _ _ hf =>
                      rcases hf with hf | hf
                      · exact absurd rfl hf
                      · cases hf
                · rw [if_neg hr, ih]
                  have hr' : rest ≠ [] ∨ f = true := by
                    by_cases h : rest = []
                    · refine .inr ?_
                      cases f with
                      | true => rfl
                      | false => exact absurd ⟨h, rfl⟩ hr
                    · exact .inl h
                  constructor
                  · rintro ⟨k, hk, h⟩
                    exact ⟨k + 1, by omega, .link h1 h2 hen hz hr' h⟩
                  · rintro ⟨k, hk, h⟩
                    cases h with
                    | dot => exact absurd rfl h1
                    | up => exact absurd rfl h2
                    | here _ _ _ hi => rw [hen] at hi; cases hi
                    | entry _ _ hi hl => rw [hen] at hi; cases hi; exact absurd ⟨_, hz⟩ hl
                    | link _ _ hi hl _ h =>
                      rw [hen] at hi; cases hi
                      rw [hz] at hl; cases hl
                      exact ⟨_, by omega, h⟩
      · rw [walk_notDir hD]
        constructor
        · intro h; cases h
        · rintro ⟨k, hk, h⟩
          cases h with
          | dot hd => exact absurd hd hD
          | up hd => exact absurd ⟨_, _, hd⟩ hD
          | here _ _ hd => exact absurd hd hD
          | entry _ _ hi => exact absurd (entry_dir hi) hD
          | link _ _ hi => exact absurd (entry_dir hi) hD

theorem resolve_leads {fs : FS} {f : Bool} {p : Path} {i : Nat} : resolve fs f p = .found i ↔ LeadsTo fs f p i := by
  unfold resolve LeadsTo start
  by_cases h : p.abs = false ∧ p.names = []
  · rw [if_pos h]
    constructor
    · intro h; cases h
    · rintro ⟨h' | h', -⟩
      · rw [h.1] at h'; cases h'
      · exact absurd h.2 h'
  · rw [if_neg h, walk_leads]
    refine ⟨fun hk => ⟨?_, hk⟩, fun hk => hk.2⟩
    by_cases hn : p.names = []
    · refine .inl ?_
      cases ha : p.abs with
      | true => rfl
      | false => exact absurd ⟨ha, hn⟩ h
    · exact .inr hn

theorem resolve_missing {fs : FS} {p : Path} {d : Nat} {n : Name} : resolve fs true p = .absent d n ↔ MissingAt fs p d n := by
  unfold resolve MissingAt start
  by_cases h : p.abs = false ∧ p.names = []
  · rw [if_pos h]
    constructor
    · intro h; cases h
    · rintro ⟨k, -, h'⟩
      rw [h.2] at h'
      cases h'
  · rw [if_neg h, walk_missing]

theorem slot_parent {fs : FS} {p : Path} {d : Nat} {n : Name} :
    Slot fs p d n ↔ ∃ up es, parent fs p = .ok (d, up, es, n) := by
  constructor
  · rintro ⟨pd, hp, h1, h2, hk, up, es, hd⟩
    refine ⟨up, es, ?_⟩
    unfold parent
    simp only [hp, List.getLast?_concat, List.dropLast_concat]
    rw [if_neg (by rintro (e | e); exact h1 e; exact h2 e)]
    have := walk_leads.2 hk
    unfold start at this
    rw [this]
    simp only [hd]
  · rintro ⟨up, es, h⟩
    obtain ⟨hd, h1, h2, hp, hw⟩ := parent_ok h
    exact ⟨_, hp, h1, h2, walk_leads.1 hw, up, es, hd⟩

theorem parent_cases (fs : FS) (p : Path) :
    (∃ e, parent fs p = .error e ∧ ∀ d n, ¬ Slot fs p d n) ∨
    ∃ d up es n, parent fs p = .ok (d, up, es, n) ∧ Slot fs p d n ∧ fs.nodes[d]? = some (.dir up es) ∧
      ∀ d' n', Slot fs p d' n' → d' = d ∧ n' = n := by
  match h : parent fs p with
  | .error e =>
    refine .inl ⟨e, rfl, fun d n hs => ?_⟩
    obtain ⟨up, es, hs⟩ := slot_parent.1 hs
    rw [h] at hs; cases hs
  | .ok (d, up, es, n) =>
    refine .inr ⟨d, up, es, n, rfl, slot_parent.2 ⟨up, es, h⟩, (parent_ok h).1, fun d' n' hs => ?_⟩
    obtain ⟨up', es', hs⟩ := slot_parent.1 hs
    rw [h] at hs; cases hs
    exact ⟨rfl, rfl⟩

theorem slot_resolve {fs : FS} {p : Path} {d up : Nat} {es : List (Name × Nat)} {n : Name}
    (h : parent fs p = .ok (d, up, es, n)) :
    resolve fs false p = match es.lookup n with | some i => .found i | none => .absent d n := by
  obtain ⟨hd, h1, h2, hp, hw⟩ := parent_ok h
  obtain ⟨k, hk⟩ := resolve_parent (f := false) hp hw
  rw [hk]
  cases hl : es.lookup n with
  | none => exact walk_last_absent hd h1 h2 hl
  | some i => exact walk_last hd h1 h2 hl (fun e => by cases e)

/-- A path leads to a file or a directory, or, if the last link is not followed, to a link. -/
theorem leads_kind {fs : FS} {f : Bool} (t : Tree fs) {cur k x : Nat} {names : List Name} (h : Leads fs f cur names k x)
    (hc : IsFile fs cur ∨ IsDir fs cur) : IsFile fs x ∨ IsDir fs x ∨ (f = false ∧ IsLink fs x) := by
  induction h with
  | here cur => rcases hc with h | h; exact .inl h; exact .inr (.inl h)
  | dot hd h ih => exact ih (.inr hd)
  | up hd h ih => exact ih (.inr (t.upDir _ _ _ hd))
  | entry h1 h2 hi hl h ih =>
    refine ih ?_
    rcases node_cases t hi with h | h | h
    · exact .inl h
    · exact .inr h
    · exact absurd h hl
  | link h1 h2 hi hl hf h ih =>
    refine ih (.inr ?_)
    split
    · obtain ⟨es, h0⟩ := t.top
      exact ⟨0, es, h0⟩
    · exact entry_dir hi
  | last h1 h2 hi hl hf => exact .inr (.inr ⟨hf, hl⟩)

theorem leadsTo_kind {fs : FS} {f : Bool} (t : Tree fs) {p : Path} {i : Nat} (h : LeadsTo fs f p i) :
    IsFile fs i ∨ IsDir fs i ∨ (f = false ∧ IsLink fs i) := by
  obtain ⟨-, k, -, h⟩ := h
  refine leads_kind t h (.inr ?_)
  unfold start
  split
  · obtain ⟨es, h0⟩ := t.top
    exact ⟨0, es, h0⟩
  · exact t.cwd

theorem leadsTo_unique {fs : FS} {f : Bool} {p : Path} {i j : Nat} (h : LeadsTo fs f p i) (h' : LeadsTo fs f p j) : i = j := by
  have := (resolve_leads.2 h).symm.trans (resolve_leads.2 h')
  exact Walk.found.inj this

theorem leads_not_missing {fs : FS} {p : Path} {i d : Nat} {n : Name} (h : LeadsTo fs true p i) (h' : MissingAt fs p d n) : False := by
  have := (resolve_leads.2 h).symm.trans (resolve_missing.2 h')
  cases this
end Fs

/-- **C144**, Read and ReadToString, for every path.  The full property: without a failure of the system they succeed
exactly if the path leads to a file.  They also succeed for a directory of which the system says that its size is 0. -/
theorem C144_anyRead_partial (fs : FS) (p : Path) (t : Tree fs) :
    (Succeeds (Fs.read none none fs p) ↔ ∃ i, LeadsTo fs true p i ∧ (IsFile fs i ∨ (IsDir fs i ∧ fs.dirSize i = 0))) ∧
    (Succeeds (Fs.readToString none none fs p) ↔
      ∃ i, LeadsTo fs true p i ∧ (IsFile fs i ∨ (IsDir fs i ∧ fs.dirSize i = 0))) ∧
    (¬ Succeeds (Fs.read none none fs p) → Refused (Fs.read none none fs p)) ∧
    (¬ Succeeds (Fs.readToString none none fs p) → Refused (Fs.readToString none none fs p)) := by
  have e : Fs.readToString none none fs p = Fs.read none none fs p := rfl
  rw [e]
  suffices hs : (Succeeds (Fs.read none none fs p) ∧
      ∃ i, LeadsTo fs true p i ∧ (IsFile fs i ∨ (IsDir fs i ∧ fs.dirSize i = 0))) ∨
      (Refused (Fs.read none none fs p) ∧
      ¬ ∃ i, LeadsTo fs true p i ∧ (IsFile fs i ∨ (IsDir fs i ∧ fs.dirSize i = 0))) by
    rcases hs with ⟨h1, h2⟩ | ⟨h1, h2⟩
    · exact ⟨⟨fun _ => h2, fun _ => h1⟩, ⟨fun _ => h2, fun _ => h1⟩, fun h => absurd h1 h, fun h => absurd h1 h⟩
    · exact ⟨⟨fun h => absurd h (refused_not h1), fun h => absurd h h2⟩,
        ⟨fun h => absurd h (refused_not h1), fun h => absurd h h2⟩, fun _ => h1, fun _ => h1⟩
  unfold Fs.read open_
  match hr : resolve fs true p with
  | .fail e =>
    refine .inr ⟨⟨_, rfl⟩, ?_⟩
    rintro ⟨i, hi, -⟩
    rw [resolve_leads.2 hi] at hr; cases hr
  | .absent d n =>
    refine .inr ⟨⟨_, rfl⟩, ?_⟩
    rintro ⟨i, hi, -⟩
    rw [resolve_leads.2 hi] at hr; cases hr
  | .found i =>
    have hi := resolve_leads.1 hr
    simp only
    rcases leadsTo_kind t hi with ⟨c, hc⟩ | ⟨u, e, hc⟩ | ⟨hc, -⟩
    · refine .inl ⟨?_, i, hi, .inl ⟨c, hc⟩⟩
      unfold fileRead size
      rw [hc]
      simp only
      by_cases h0 : c.length = 0
      · rw [if_pos h0]; exact ⟨_, rfl⟩
      · rw [if_neg h0, if_neg]
        · exact ⟨_, rfl⟩
        · intro hn
          have := congrArg List.length hn
          simp [maxRW] at this
          simp [this] at h0
    · unfold fileRead size
      rw [hc]
      simp only
      by_cases h0 : fs.dirSize i = 0
      · rw [if_pos h0]; exact .inl ⟨⟨_, rfl⟩, i, hi, .inr ⟨⟨u, e, hc⟩, h0⟩⟩
      · rw [if_neg h0]
        refine .inr ⟨⟨_, rfl⟩, ?_⟩
        rintro ⟨j, hj, ⟨c', hc'⟩ | ⟨-, hz⟩⟩
        · cases leadsTo_unique hi hj; rw [hc] at hc'; cases hc'
        · cases leadsTo_unique hi hj; exact h0 hz
    · cases hc

/-- **C144**, Write, for every path: without a failure of the system it succeeds exactly if the path leads to a file or
to a free name in a directory.  (A link that leads to a free name is enough.) -/
theorem C144_anyWrite (fs : FS) (p : Path) (data : List UInt8) (t : Tree fs) :
    (Succeeds (Fs.write none none fs p data).1 ↔
      (∃ i, LeadsTo fs true p i ∧ IsFile fs i) ∨ ∃ d n, MissingAt fs p d n) ∧
    (¬ Succeeds (Fs.write none none fs p data).1 →
      Refused (Fs.write none none fs p data).1 ∧ (Fs.write none none fs p data).2 = fs) := by
  suffices hs : (Succeeds (Fs.write none none fs p data).1 ∧
      ((∃ i, LeadsTo fs true p i ∧ IsFile fs i) ∨ ∃ d n, MissingAt fs p d n)) ∨
      ((Refused (Fs.write none none fs p data).1 ∧ (Fs.write none none fs p data).2 = fs) ∧
      ¬ ((∃ i, LeadsTo fs true p i ∧ IsFile fs i) ∨ ∃ d n, MissingAt fs p d n)) by
    rcases hs with ⟨h1, h2⟩ | ⟨h1, h2⟩
    · exact ⟨⟨fun _ => h2, fun _ => h1⟩, fun h => absurd h1 h⟩
    · exact ⟨⟨fun h => absurd h (refused_not h1.1), fun h => absurd h h2⟩, fun _ => h1⟩
  unfold Fs.write create
  match hr : resolve fs true p with
  | .fail e =>
    refine .inr ⟨⟨⟨_, rfl⟩, rfl⟩, ?_⟩
    rintro (⟨i, hi, -⟩ | ⟨d, n, hm⟩)
    · rw [resolve_leads.2 hi] at hr; cases hr
    · rw [resolve_missing.2 hm] at hr; cases hr
  | .absent d n =>
    obtain ⟨⟨up, es, hd, -⟩, -⟩ : (∃ up es, fs.nodes[d]? = some (.dir up es) ∧ es.lookup n = none) ∧ n ≠ dot ∧ n ≠ dotdot := by
      unfold resolve at hr
      split at hr
      · cases hr
      · exact walk_absent hr
    simp only [hd, fileWrite]
    exact .inl ⟨⟨_, rfl⟩, .inr ⟨d, n, resolve_missing.1 hr⟩⟩
  | .found i =>
    have hi := resolve_leads.1 hr
    simp only
    rcases leadsTo_kind t hi with ⟨c, hc⟩ | ⟨u, e, hc⟩ | ⟨hc, -⟩
    · simp only [hc, fileWrite]
      exact .inl ⟨⟨_, rfl⟩, .inl ⟨i, hi, c, hc⟩⟩
    · simp only [hc]
      refine .inr ⟨⟨⟨_, rfl⟩, by trivial⟩, ?_⟩
      rintro (⟨j, hj, c, hc'⟩ | ⟨d, n, hm⟩)
      · cases leadsTo_unique hi hj; rw [hc] at hc'; cases hc'
      · exact leads_not_missing hi hm
    · cases hc

/-- **C144**, CreateDir, for every path: without a failure of the system it succeeds exactly if the path names a free
entry of a directory. -/
theorem C144_anyCreateDir (fs : FS) (p : Path) :
    (Succeeds (Fs.createDir none fs p).1 ↔ ∃ d n, Slot fs p d n ∧ inode fs d n = none) ∧
    (¬ Succeeds (Fs.createDir none fs p).1 → Refused (Fs.createDir none fs p).1 ∧ (Fs.createDir none fs p).2 = fs) := by
  suffices hs : (Succeeds (Fs.createDir none fs p).1 ∧ ∃ d n, Slot fs p d n ∧ inode fs d n = none) ∨
      ((Refused (Fs.createDir none fs p).1 ∧ (Fs.createDir none fs p).2 = fs) ∧ ¬ ∃ d n, Slot fs p d n ∧ inode fs d n = none) by
    rcases hs with ⟨h1, h2⟩ | ⟨h1, h2⟩
    · exact ⟨⟨fun _ => h2, fun _ => h1⟩, fun h => absurd h1 h⟩
    · exact ⟨⟨fun h => absurd h (refused_not h1.1), fun h => absurd h h2⟩, fun _ => h1⟩
  unfold Fs.createDir mkdir
  rcases parent_cases fs p with ⟨e, he, hno⟩ | ⟨d, up, es, n, hp, hs, hd, huniq⟩
  · refine .inr ⟨?_, by rintro ⟨d, n, hs, -⟩; exact hno d n hs⟩
    rw [he]
    cases e <;> exact ⟨⟨_, rfl⟩, rfl⟩
  · simp only [hp]
    cases hi : es.lookup n with
    | none => exact .inl ⟨⟨_, rfl⟩, d, n, hs, by rw [entry_of hd, hi]⟩
    | some i =>
      refine .inr ⟨⟨⟨_, rfl⟩, by trivial⟩, ?_⟩
      rintro ⟨d', n', hs', hx⟩
      obtain ⟨rfl, rfl⟩ := huniq d' n' hs'
      rw [entry_of hd, hi] at hx; cases hx

/-- **C144**, RemoveFile and RemoveDir, for every path: without a failure of the system each of the two succeeds
exactly if the path names an entry of a directory that is there and not a directory with entries itself. -/
theorem C144_anyRemove (fs : FS) (p : Path) (t : Tree fs) :
    (Succeeds (Fs.removeFile none fs p).1 ↔
      ∃ d n i, Slot fs p d n ∧ inode fs d n = some i ∧ (IsDir fs i → IsEmptyDir fs i)) ∧
    (¬ Succeeds (Fs.removeFile none fs p).1 → Refused (Fs.removeFile none fs p).1 ∧ (Fs.removeFile none fs p).2 = fs) ∧
    Fs.removeDir none fs p = Fs.removeFile none fs p := by
  suffices hs : (Succeeds (Fs.removeFile none fs p).1 ∧
      ∃ d n i, Slot fs p d n ∧ inode fs d n = some i ∧ (IsDir fs i → IsEmptyDir fs i)) ∨
      ((Refused (Fs.removeFile none fs p).1 ∧ (Fs.removeFile none fs p).2 = fs) ∧
      ¬ ∃ d n i, Slot fs p d n ∧ inode fs d n = some i ∧ (IsDir fs i → IsEmptyDir fs i)) by
    rcases hs with ⟨h1, h2⟩ | ⟨h1, h2⟩
    · exact ⟨⟨fun _ => h2, fun _ => h1⟩, fun h => absurd h1 h, rfl⟩
    · exact ⟨⟨fun h => absurd h (refused_not h1.1), fun h => absurd h h2⟩, fun _ => h1, rfl⟩
  unfold Fs.removeFile remove unlink rmdir
  rcases parent_cases fs p with ⟨e, he, hno⟩ | ⟨d, up, es, n, hp, hs, hd, huniq⟩
  · refine .inr ⟨?_, by rintro ⟨d, n, i, hs, -⟩; exact hno d n hs⟩
    simp only [he]
    exact ⟨⟨_, rfl⟩, by trivial⟩
  · simp only [hp]
    cases hi : es.lookup n with
    | none =>
      refine .inr ⟨⟨⟨_, rfl⟩, by trivial⟩, ?_⟩
      rintro ⟨d', n', i, hs', hx, -⟩
      obtain ⟨rfl, rfl⟩ := huniq d' n' hs'
      rw [entry_of hd, hi] at hx; cases hx
    | some i =>
      have hi' : inode fs d n = some i := by rw [entry_of hd, hi]
      rcases node_cases t hi' with ⟨c, hc⟩ | ⟨u, e, hc⟩ | ⟨q, hc⟩
      · simp only [hc]
        refine .inl ⟨⟨_, rfl⟩, d, n, i, hs, hi', ?_⟩
        rintro ⟨u, e, hx⟩; rw [hc] at hx; cases hx
      · cases e with
        | nil => simp only [hc]; exact .inl ⟨⟨_, rfl⟩, d, n, i, hs, hi', fun _ => ⟨u, hc⟩⟩
        | cons a e =>
          simp only [hc]
          refine .inr ⟨⟨⟨_, rfl⟩, by trivial⟩, ?_⟩
          rintro ⟨d', n', j, hs', hj, hx⟩
          obtain ⟨rfl, rfl⟩ := huniq d' n' hs'
          rw [hi'] at hj
          cases hj
          obtain ⟨v, hv⟩ := hx ⟨u, _, hc⟩
          rw [hc] at hv; cases hv
      · simp only [hc]
        refine .inl ⟨⟨_, rfl⟩, d, n, i, hs, hi', ?_⟩
        rintro ⟨u, e, hx⟩; rw [hc] at hx; cases hx

/-- **C144**, ReadDir, for every path: without a failure of the system it succeeds exactly if the path leads to a
directory. -/
theorem C144_anyReadDir (g : Growth) (fs : FS) (p : Path)
    (hfit : ∀ (i u : Nat) (e : List (Name × Nat)), fs.nodes[i]? = some (.dir u e) → e.length < 2 ^ 63) :
    ((∃ v, Fs.readDir g none fs p = .ok (Res.mkOk v)) ↔ ∃ i, LeadsTo fs true p i ∧ IsDir fs i) ∧
    ((¬ ∃ i, LeadsTo fs true p i ∧ IsDir fs i) → ∃ e, Fs.readDir g none fs p = .ok (Res.mkErr (some e))) := by
  suffices hs : ((∃ v, Fs.readDir g none fs p = .ok (Res.mkOk v)) ∧ ∃ i, LeadsTo fs true p i ∧ IsDir fs i) ∨
      ((∃ e, Fs.readDir g none fs p = .ok (Res.mkErr (some e))) ∧ ¬ ∃ i, LeadsTo fs true p i ∧ IsDir fs i) by
    rcases hs with ⟨h1, h2⟩ | ⟨⟨e, h1⟩, h2⟩
    · exact ⟨⟨fun _ => h2, fun _ => h1⟩, fun h => absurd h2 h⟩
    · refine ⟨⟨fun ⟨v, hv⟩ => ?_, fun h => absurd h h2⟩, fun _ => ⟨e, h1⟩⟩
      rw [h1] at hv
      exact absurd (Except.ok.inj hv) mkErr_ne_mkOk
  unfold Fs.readDir Os.readDir
  match hr : resolve fs true p with
  | .fail e =>
    refine .inr ⟨⟨_, rfl⟩, ?_⟩
    rintro ⟨i, hi, -⟩
    rw [resolve_leads.2 hi] at hr; cases hr
  | .absent d n =>
    refine .inr ⟨⟨_, rfl⟩, ?_⟩
    rintro ⟨i, hi, -⟩
    rw [resolve_leads.2 hi] at hr; cases hr
  | .found i =>
    have hi := resolve_leads.1 hr
    simp only
    by_cases hD : IsDir fs i
    · obtain ⟨u, e, hc⟩ := hD
      simp only [hc]
      refine .inl ⟨?_, i, hi, u, e, hc⟩
      have hn := hfit i u e hc
      simp only [Vec.withLen, makeLen, List.length_map, List.length_mergeSort, hn, if_true, Go.bind_ok]
      exact ⟨_, rfl⟩
    · refine .inr ⟨?_, ?_⟩
      · match hc : fs.nodes[i]? with
        | some (.dir u e) => exact absurd ⟨u, e, hc⟩ hD
        | some (.file c) => exact ⟨_, rfl⟩
        | some (.link c) => exact ⟨_, rfl⟩
        | none => exact ⟨_, rfl⟩
      · rintro ⟨j, hj, hx⟩
        cases leadsTo_unique hi hj
        exact hD hx

/-- **C144**, Copy, for every two paths: without a failure of the system it succeeds exactly if the first leads to
something that is not a directory (a link in the last place is not followed) and the second names a free entry. -/
theorem C144_anyCopy (fs : FS) (a b : Path) :
    (Succeeds (Fs.copy none fs a b).1 ↔
      (∃ i, LeadsTo fs false a i ∧ ¬ IsDir fs i) ∧ ∃ d n, Slot fs b d n ∧ inode fs d n = none) ∧
    (¬ Succeeds (Fs.copy none fs a b).1 → Refused (Fs.copy none fs a b).1 ∧ (Fs.copy none fs a b).2 = fs) := by
  suffices hs : (Succeeds (Fs.copy none fs a b).1 ∧
      (∃ i, LeadsTo fs false a i ∧ ¬ IsDir fs i) ∧ ∃ d n, Slot fs b d n ∧ inode fs d n = none) ∨
      ((Refused (Fs.copy none fs a b).1 ∧ (Fs.copy none fs a b).2 = fs) ∧
      ¬ ((∃ i, LeadsTo fs false a i ∧ ¬ IsDir fs i) ∧ ∃ d n, Slot fs b d n ∧ inode fs d n = none)) by
    rcases hs with ⟨h1, h2⟩ | ⟨h1, h2⟩
    · exact ⟨⟨fun _ => h2, fun _ => h1⟩, fun h => absurd h1 h⟩
    · exact ⟨⟨fun h => absurd h (refused_not h1.1), fun h => absurd h h2⟩, fun _ => h1⟩
  unfold Fs.copy link
  match hr : resolve fs false a with
  | .fail e =>
    refine .inr ⟨⟨⟨_, rfl⟩, rfl⟩, ?_⟩
    rintro ⟨⟨i, hi, -⟩, -⟩
    rw [resolve_leads.2 hi] at hr; cases hr
  | .absent d n =>
    refine .inr ⟨⟨⟨_, rfl⟩, rfl⟩, ?_⟩
    rintro ⟨⟨i, hi, -⟩, -⟩
    rw [resolve_leads.2 hi] at hr; cases hr
  | .found i =>
    have hi := resolve_leads.1 hr
    simp only
    rcases parent_cases fs b with ⟨e, he, hno⟩ | ⟨d, up, es, n, hp, hs, hd, huniq⟩
    · refine .inr ⟨?_, by rintro ⟨-, d, n, hs, -⟩; exact hno d n hs⟩
      rw [he]
      cases e <;> exact ⟨⟨_, rfl⟩, rfl⟩
    · simp only [hp]
      cases hl : es.lookup n with
      | some j =>
        refine .inr ⟨⟨⟨_, rfl⟩, by trivial⟩, ?_⟩
        rintro ⟨-, d', n', hs', hx⟩
        obtain ⟨rfl, rfl⟩ := huniq d' n' hs'
        rw [entry_of hd, hl] at hx; cases hx
      | none =>
        simp only
        by_cases hD : IsDir fs i
        · obtain ⟨u, e, hc⟩ := hD
          simp only [hc]
          refine .inr ⟨⟨⟨_, rfl⟩, by trivial⟩, ?_⟩
          rintro ⟨⟨j, hj, hx⟩, -⟩
          cases leadsTo_unique hi hj
          exact hx ⟨u, e, hc⟩
        · refine .inl ⟨?_, ⟨i, hi, hD⟩, d, n, hs, by rw [entry_of hd, hl]⟩
          match hc : fs.nodes[i]? with
          | some (.dir u e) => exact absurd ⟨u, e, hc⟩ hD
          | some (.file c) => exact ⟨_, rfl⟩
          | some (.link c) => exact ⟨_, rfl⟩
          | none => exact ⟨_, rfl⟩

namespace Fs
theorem isAbove_iff {fs : FS} (t : Tree fs) {i d : Nat} {q : List Name} (hq : reach fs 0 q = some d) (hd : IsDir fs d)
    (hi : ∃ p, reach fs 0 p = some i) :
    isAbove fs i fs.nodes.length d = true ↔ ∃ r, reach fs i r = some d := by
  constructor
  · intro h
    obtain ⟨p, ⟨r, rfl⟩, hp⟩ := isAbove_prefix t h hq hd
    rw [reach_append, hp] at hq
    exact ⟨r, hq⟩
  · rintro ⟨r, hr⟩
    obtain ⟨p, hp⟩ := hi
    have hpr : reach fs 0 (p ++ r) = some d := by rw [reach_append, hp]; exact hr
    have hs := t.short hpr hd
    exact isAbove_reach t hr hd _ (by simp at hs; omega)
end Fs

/-- **C144**, Rename, for every two paths: without a failure of the system it succeeds exactly if the first names an
entry that is there, the second an entry of a directory, and
* the second is free and not inside the first, or
* neither of the two is a directory, or
* both are the same directory, written in two ways (nothing is changed then). -/
theorem C144_anyRename (fs : FS) (a b : Path) (t : Tree fs) (hc : ∃ q, reach fs 0 q = some fs.cwd) :
    (Succeeds (Fs.rename none fs a b).1 ↔
      ∃ d n d' n' i, Slot fs a d n ∧ Slot fs b d' n' ∧ inode fs d n = some i ∧
        ((inode fs d' n' = none ∧ (IsDir fs i → ∀ r, reach fs i r ≠ some d')) ∨
         (∃ j, inode fs d' n' = some j ∧ ¬ IsDir fs i ∧ ¬ IsDir fs j) ∨
         (inode fs d' n' = some i ∧ IsDir fs i ∧ a ≠ b))) ∧
    (¬ Succeeds (Fs.rename none fs a b).1 → Refused (Fs.rename none fs a b).1 ∧ (Fs.rename none fs a b).2 = fs) := by
  have both : ∀ r : Except Errno FS, Os.rename none fs a b = r →
      (Succeeds (Fs.rename none fs a b).1 ↔ ∃ fs', r = .ok fs') ∧
      (¬ Succeeds (Fs.rename none fs a b).1 → Refused (Fs.rename none fs a b).1 ∧ (Fs.rename none fs a b).2 = fs) := by
    intro r hr
    unfold Fs.rename
    rw [hr]
    cases r with
    | ok fs' => exact ⟨⟨fun _ => ⟨fs', rfl⟩, fun _ => ⟨_, rfl⟩⟩, fun h => absurd ⟨_, rfl⟩ h⟩
    | error e =>
      exact ⟨⟨fun h => absurd h (refused_not ⟨_, rfl⟩), by rintro ⟨fs', h⟩; cases h⟩, fun _ => ⟨⟨_, rfl⟩, rfl⟩⟩
  refine ⟨(both _ rfl).1.trans ?_, (both _ rfl).2⟩
  rcases parent_cases fs a with ⟨e, he, hno⟩ | ⟨d, up, es, n, hp, hs, hd, huniq⟩
  · constructor
    · rintro ⟨fs', h⟩
      obtain ⟨-, h⟩ := rename_sys h
      obtain ⟨d0, up, es, m, d0', up', es', m', i0, hpa, -⟩ := sysRename_spec h
      rw [he] at hpa; cases hpa
    · rintro ⟨d, n, -, -, -, hs, -⟩
      exact absurd hs (hno d n)
  rcases parent_cases fs b with ⟨e, he, hno⟩ | ⟨d', up', es', n', hp', hs', hd', huniq'⟩
  · constructor
    · rintro ⟨fs', h⟩
      obtain ⟨-, h⟩ := rename_sys h
      obtain ⟨d0, up, es, m, d0', up', es', m', i0, -, hpb, -⟩ := sysRename_spec h
      rw [he] at hpb; cases hpb
    · rintro ⟨-, -, d, n, -, -, hs, -⟩
      exact absurd hs (hno d n)
  -- the condition, with the two entries that the paths name
  have cond : (∃ d n d' n' i, Slot fs a d n ∧ Slot fs b d' n' ∧ inode fs d n = some i ∧
        ((inode fs d' n' = none ∧ (IsDir fs i → ∀ r, reach fs i r ≠ some d')) ∨
         (∃ j, inode fs d' n' = some j ∧ ¬ IsDir fs i ∧ ¬ IsDir fs j) ∨
         (inode fs d' n' = some i ∧ IsDir fs i ∧ a ≠ b))) ↔
      ∃ i, inode fs d n = some i ∧
        ((inode fs d' n' = none ∧ (IsDir fs i → ∀ r, reach fs i r ≠ some d')) ∨
         (∃ j, inode fs d' n' = some j ∧ ¬ IsDir fs i ∧ ¬ IsDir fs j) ∨
         (inode fs d' n' = some i ∧ IsDir fs i ∧ a ≠ b)) := by
    constructor
    · rintro ⟨x, m, x', m', i, h1, h2, h3⟩
      obtain ⟨rfl, rfl⟩ := huniq x m h1
      obtain ⟨rfl, rfl⟩ := huniq' x' m' h2
      exact ⟨i, h3⟩
    · rintro ⟨i, h3⟩
      exact ⟨d, n, d', n', i, hs, hs', h3⟩
  rw [cond]
  have ra := slot_resolve hp
  have rb := slot_resolve hp'
  rw [entry_of hd, entry_of hd']
  cases hi : es.lookup n with
  | none =>
    constructor
    · rintro ⟨fs', h⟩
      obtain ⟨-, h⟩ := rename_sys h
      obtain ⟨d0, up, es, m, d0', up', es', m', i0, hpa, -, hl, -⟩ := sysRename_spec h
      rw [hp] at hpa; cases hpa
      rw [hi] at hl; cases hl
    · rintro ⟨i, h, -⟩; cases h
  | some i =>
    have hi0 : inode fs d n = some i := by rw [entry_of hd, hi]
    have hib : ∃ p, reach fs 0 p = some i := by
      obtain ⟨q, hq⟩ := parent_below t hc hp
      exact ⟨q ++ [n], reach_snoc.2 ⟨d, hq, hi0⟩⟩
    obtain ⟨q', hq'⟩ := parent_below t hc hp'
    rw [hi] at ra
    simp only at ra
    cases hj : es'.lookup n' with
    | none =>
      rw [hj] at rb
      simp only at rb
      have e : Os.rename none fs a b = sysRename fs a b := by
        unfold Os.rename lstat
        rw [rb]
      rw [e]
      unfold sysRename
      rw [hp, hp']
      simp only [hi, hj, reduceCtorEq, if_false]
      by_cases hI : IsDir fs i
      · have hI' := hI
        obtain ⟨u, e, hI⟩ := hI
        simp only [hI, Bool.true_and]
        cases hab : isAbove fs i fs.nodes.length d' with
        | true =>
          obtain ⟨r, hr⟩ := (isAbove_iff t hq' ⟨_, _, hd'⟩ hib).1 hab
          simp only [if_true, reduceCtorEq, exists_false, false_iff]
          rintro ⟨k, hk, ⟨-, hx⟩ | ⟨j, hx, -⟩ | ⟨hx, -⟩⟩
          · cases hk; exact hx hI' r hr
          · cases hx
          · cases hx
        | false =>
          simp only [Bool.false_eq_true, if_false]
          refine ⟨fun _ => ⟨i, rfl, .inl ⟨by trivial, fun _ r hr => ?_⟩⟩, fun _ => ⟨_, rfl⟩⟩
          rw [(isAbove_iff t hq' ⟨_, _, hd'⟩ hib).2 ⟨r, hr⟩] at hab
          cases hab
      · rcases node_cases t hi0 with ⟨c, hx⟩ | hx | ⟨c, hx⟩
        · simp only [hx, Bool.false_and, Bool.false_eq_true, if_false]
          exact ⟨fun _ => ⟨i, rfl, .inl ⟨by trivial, fun h => absurd h hI⟩⟩, fun _ => ⟨_, rfl⟩⟩
        · exact absurd hx hI
        · simp only [hx, Bool.false_and, Bool.false_eq_true, if_false]
          exact ⟨fun _ => ⟨i, rfl, .inl ⟨by trivial, fun h => absurd h hI⟩⟩, fun _ => ⟨_, rfl⟩⟩
    | some j =>
      have hj0 : inode fs d' n' = some j := by rw [entry_of hd', hj]
      rw [hj] at rb
      simp only at rb
      by_cases hJ : IsDir fs j
      · obtain ⟨u, e, hJn⟩ := hJ
        have e : Os.rename none fs a b = if a = b ∨ i ≠ j then .error .EEXIST else sysRename fs a b := by
          unfold Os.rename lstat
          rw [ra, rb]
          simp only [hJn]
        rw [e]
        by_cases hor : a = b ∨ i ≠ j
        · rw [if_pos hor]
          constructor
          · rintro ⟨fs', h⟩; cases h
          · rintro ⟨k, hk, ⟨hx, -⟩ | ⟨l, hl, -, hx⟩ | ⟨hx, -, hab⟩⟩
            · cases hx
            · cases hl; exact absurd ⟨u, _, hJn⟩ hx
            · cases hk; cases hx
              rcases hor with h | h
              · exact absurd h hab
              · exact absurd rfl h
        · rw [if_neg hor]
          have hij : i = j := Decidable.byContradiction fun h => hor (.inr h)
          subst hij
          unfold sysRename
          rw [hp, hp']
          simp only [hi, hj, if_true]
          exact ⟨fun _ => ⟨i, rfl, .inr (.inr ⟨rfl, ⟨u, _, hJn⟩, fun h => hor (.inl h)⟩)⟩, fun _ => ⟨_, rfl⟩⟩
      · have e : Os.rename none fs a b = sysRename fs a b := by
          unfold Os.rename lstat
          rw [rb]
          simp only
          match hx : fs.nodes[j]? with
          | some (.dir u e) => exact absurd ⟨u, e, hx⟩ hJ
          | some (.file c) => rfl
          | some (.link p) => rfl
          | none => rfl
        rw [e]
        unfold sysRename
        rw [hp, hp']
        simp only [hi, hj]
        by_cases hij : j = i
        · subst hij
          simp only [if_true]
          exact ⟨fun _ => ⟨j, rfl, .inr (.inl ⟨j, rfl, hJ, hJ⟩)⟩, fun _ => ⟨_, rfl⟩⟩
        · rw [if_neg (by intro hc; exact hij (Option.some.inj hc))]
          rcases node_cases t hj0 with ⟨cj, hcj⟩ | hcj | ⟨cj, hcj⟩
          rotate_left
          · exact absurd hcj hJ
          all_goals
            rcases node_cases t hi0 with ⟨c, hc⟩ | ⟨u, e, hc⟩ | ⟨p, hc⟩
            · simp only [hc, hcj, Bool.false_and, Bool.false_eq_true, if_false]
              exact ⟨fun _ => ⟨i, rfl, .inr (.inl ⟨j, rfl, (by rintro ⟨u, e, hx⟩; rw [hc] at hx; cases hx), hJ⟩)⟩,
                fun _ => ⟨_, rfl⟩⟩
            · simp only [hc, hcj, if_true, reduceCtorEq, exists_false, false_iff]
              rintro ⟨k, hk, ⟨hx, -⟩ | ⟨l, -, hx, -⟩ | ⟨hx, -⟩⟩
              · cases hx
              · cases hk; exact hx ⟨u, e, hc⟩
              · cases hk; cases hx; exact hij rfl
            · simp only [hc, hcj, Bool.false_and, Bool.false_eq_true, if_false]
              exact ⟨fun _ => ⟨i, rfl, .inr (.inl ⟨j, rfl, (by rintro ⟨u, e, hx⟩; rw [hc] at hx; cases hx), hJ⟩)⟩,
                fun _ => ⟨_, rfl⟩⟩

/-! The hypotheses hold: the working directory is `/d` (inode 1) with the file `x` (2) and the link `k` to `../e/y` (3),
which is not there; `/l` (4) is a link to `d`, `/o` (6) a link to itself, `/e` (5) an empty directory. -/
def Fs.linked : FS :=
  { nodes := [.dir 0 [([100], 1), ([108], 4), ([101], 5), ([111], 6)], .dir 0 [([120], 2), ([107], 3)], .file [7],
      .link ⟨false, [dotdot, [101], [121]]⟩, .link ⟨false, [[100]]⟩, .dir 0 [], .link ⟨false, [[111]]⟩]
    cwd := 1, limit := 40, dirSize := fun _ => 4096 }

theorem Fs.linked_inode {d k : Nat} {n : Name} (h : inode linked d n = some k) :
    (d = 0 ∧ n = [100] ∧ k = 1) ∨ (d = 0 ∧ n = [108] ∧ k = 4) ∨ (d = 0 ∧ n = [101] ∧ k = 5) ∨ (d = 0 ∧ n = [111] ∧ k = 6) ∨
    (d = 1 ∧ n = [120] ∧ k = 2) ∨ (d = 1 ∧ n = [107] ∧ k = 3) := by
  have mem : ∀ (es : List (Name × Nat)), es.lookup n = some k → (n, k) ∈ es := by
    intro es he
    induction es with
    | nil => cases he
    | cons a es ih =>
      rw [List.lookup_cons] at he
      split at he
      · rename_i hb
        rw [beq_iff_eq] at hb
        cases he
        subst hb
        exact .head _
      · exact .tail _ (ih he)
  match d with
  | 0 =>
    have := mem [([100], 1), ([108], 4), ([101], 5), ([111], 6)] h
    simp at this
    rcases this with ⟨rfl, rfl⟩ | ⟨rfl, rfl⟩ | ⟨rfl, rfl⟩ | ⟨rfl, rfl⟩ <;> decide
  | 1 =>
    have := mem [([120], 2), ([107], 3)] h
    simp at this
    rcases this with ⟨rfl, rfl⟩ | ⟨rfl, rfl⟩ <;> decide
  | 5 => cases mem [] h
  | 2 | 3 | 4 | 6 => cases h
  | d + 7 => cases h

theorem Fs.linked_tree : Tree linked where
  top := ⟨_, rfl⟩
  cwd := ⟨_, _, rfl⟩
  dots d := by
    constructor
    · match h : inode linked d dot with
      | none => rfl
      | some k => rcases linked_inode h with h | h | h | h | h | h <;> exact absurd h.2.1 (by decide)
    · match h : inode linked d dotdot with
      | none => rfl
      | some k => rcases linked_inode h with h | h | h | h | h | h <;> exact absurd h.2.1 (by decide)
  upDir k u es h := by
    have : u = 0 := by
      match k with
      | 0 | 1 | 5 => cases h; rfl
      | 2 | 3 | 4 | 6 => cases h
      | k + 7 => cases h
    subst this
    exact ⟨_, _, rfl⟩
  root d n h := by rcases linked_inode h with h | h | h | h | h | h <;> exact absurd h.2.2 (by decide)
  up d n k h hk := by
    rcases linked_inode h with ⟨rfl, -, rfl⟩ | ⟨rfl, -, rfl⟩ | ⟨rfl, -, rfl⟩ | ⟨rfl, -, rfl⟩ | ⟨rfl, -, rfl⟩ | ⟨rfl, -, rfl⟩
    · exact ⟨_, rfl⟩
    · obtain ⟨u, e, hk⟩ := hk; cases hk
    · exact ⟨_, rfl⟩
    all_goals obtain ⟨u, e, hk⟩ := hk; cases hk
  name d n n' k h h' hk := by
    have a := linked_inode h
    have b := linked_inode h'
    rcases a with ⟨rfl, rfl, rfl⟩ | ⟨rfl, rfl, rfl⟩ | ⟨rfl, rfl, rfl⟩ | ⟨rfl, rfl, rfl⟩ | ⟨rfl, rfl, rfl⟩ | ⟨rfl, rfl, rfl⟩ <;>
      (simp at b; exact b.symm)
  range d n k h := by
    rcases linked_inode h with h | h | h | h | h | h <;> (rw [h.2.2]; decide)

-- `x`, `/l/./x` and `../l/x` lead to the file; `k` and `/l/k` to the free name `y` in `/e`; `..` to the root
example : LeadsTo Fs.linked true ⟨false, [[120]]⟩ 2 ∧ LeadsTo Fs.linked true ⟨true, [[108], dot, [120]]⟩ 2 ∧
    LeadsTo Fs.linked true ⟨false, [dotdot, [108], [120]]⟩ 2 ∧ MissingAt Fs.linked ⟨false, [[107]]⟩ 5 [121] ∧
    MissingAt Fs.linked ⟨true, [[108], [107]]⟩ 5 [121] ∧ LeadsTo Fs.linked true ⟨false, [dotdot]⟩ 0 :=
  ⟨resolve_leads.1 (by decide +kernel), resolve_leads.1 (by decide +kernel), resolve_leads.1 (by decide +kernel),
   resolve_missing.1 (by decide +kernel), resolve_missing.1 (by decide +kernel), resolve_leads.1 (by decide +kernel)⟩
-- the way of `/l/x`, step by step
example : Leads Fs.linked true 0 [[108], [120]] 3 2 :=
  .link (by decide) (by decide) (i := 4) rfl rfl (.inl (by decide))
    (.entry (by decide) (by decide) (i := 1) rfl (by rintro ⟨t, h⟩; cases h)
      (.entry (by decide) (by decide) (i := 2) rfl (by rintro ⟨t, h⟩; cases h) (.here 2)))
-- without following the last link `k` is the link; `/o` leads nowhere; `x/..` neither, `x` is a file
example : LeadsTo Fs.linked false ⟨false, [[107]]⟩ 3 ∧ (∀ i, ¬ LeadsTo Fs.linked true ⟨true, [[111]]⟩ i) ∧
    (∀ i, ¬ LeadsTo Fs.linked true ⟨false, [[120], dotdot]⟩ i) ∧ (∀ i, ¬ LeadsTo Fs.linked true ⟨false, []⟩ i) := by
  refine ⟨resolve_leads.1 (by decide +kernel), ?_, ?_, ?_⟩
  · intro i h
    have := resolve_leads.2 h
    rw [show resolve Fs.linked true ⟨true, [[111]]⟩ = .fail .ELOOP by decide +kernel] at this
    cases this
  · intro i h
    have := resolve_leads.2 h
    rw [show resolve Fs.linked true ⟨false, [[120], dotdot]⟩ = .fail .ENOTDIR by decide +kernel] at this
    cases this
  · rintro i ⟨h | h, -⟩
    · cases h
    · exact h rfl
-- the entries that `../l/z` and `/e/../d/z` name; `..` and `/` name none
example : Slot Fs.linked ⟨false, [dotdot, [108], [122]]⟩ 1 [122] ∧ Slot Fs.linked ⟨true, [[101], dotdot, [100], [122]]⟩ 1 [122] ∧
    (∀ d n, ¬ Slot Fs.linked ⟨false, [dotdot]⟩ d n) ∧ (∀ d n, ¬ Slot Fs.linked ⟨true, []⟩ d n) := by
  refine ⟨slot_parent.2 ⟨0, [([120], 2), ([107], 3)], rfl⟩,
    slot_parent.2 ⟨0, [([120], 2), ([107], 3)], rfl⟩, ?_, ?_⟩
  · intro d n h
    obtain ⟨up, es, h⟩ := slot_parent.1 h
    cases h
  · intro d n h
    obtain ⟨up, es, h⟩ := slot_parent.1 h
    cases h
-- Write to the link `k` makes `/e/y`; CreateDir, Copy and Rename do not follow it; the link to itself cannot be read
example : (Fs.write none none Fs.linked ⟨false, [[107]]⟩ [1, 2]).1 = Res.mkOk () ∧
    Fs.read none none (Fs.write none none Fs.linked ⟨false, [[107]]⟩ [1, 2]).2 ⟨true, [[101], [121]]⟩ = Res.mkOk [1, 2] ∧
    (Fs.createDir none Fs.linked ⟨false, [[107]]⟩).1 = Res.mkErr (some .EEXIST) ∧
    (Fs.copy none Fs.linked ⟨false, [[107]]⟩ ⟨true, [[108], [122]]⟩).1 = Res.mkOk () ∧
    Fs.read none none Fs.linked ⟨true, [[111]]⟩ = Res.mkErr (some .ELOOP) ∧
    (Fs.removeFile none Fs.linked ⟨true, [[111]]⟩).1 = Res.mkOk () ∧
    (Fs.removeDir none Fs.linked ⟨false, [dotdot]⟩).1 = Res.mkErr (some .EINVAL) := by decide +kernel
-- the working directory can be renamed, but not into itself through the link; to itself in two ways nothing happens
example : (Fs.rename none Fs.linked ⟨false, [dotdot, [100]]⟩ ⟨true, [[101], [122]]⟩).1 = Res.mkOk () ∧
    (Fs.rename none Fs.linked ⟨true, [[100]]⟩ ⟨true, [[108], [122]]⟩).1 = Res.mkErr (some .EINVAL) ∧
    (Fs.rename none Fs.linked ⟨true, [[100]]⟩ ⟨true, [[100]]⟩).1 = Res.mkErr (some .EEXIST) ∧
    (Fs.rename none Fs.linked ⟨true, [[100]]⟩ ⟨false, [dotdot, [100]]⟩).1 = Res.mkOk () ∧
    (Fs.rename none Fs.linked ⟨true, [[100]]⟩ ⟨false, [dotdot, [100]]⟩).2.nodes = Fs.linked.nodes ∧
    reach Fs.linked 0 [[100]] = some Fs.linked.cwd := by decide +kernel
end Gost
