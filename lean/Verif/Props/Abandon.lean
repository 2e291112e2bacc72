import Verif.Props.Mutex
/-
Property C170: who owns a Mutex, in any program; a Mutex that is not unlocked stays locked.

C81 is about goroutines that go through critical sections one after another.  Here the program is arbitrary: any tree of
instructions, with channels, variables, other Mutexes, nested sections and goroutines started anywhere.
-/
namespace Gost
open Conc
variable {V E : Type}

namespace Spec
/-- The goroutine unlocks the Mutex only when it has it, on every path and whatever it receives, reads and is told by
TryLock; `has` says whether it has it now.  So do the goroutines it starts.  It need not unlock it. -/
def Pairs (m : Nat) : Bool → Proc V E → Prop
  | _, .done => True
  | has, .emit _ k => Pairs m has k
  | has, .tau k => Pairs m has k
  | has, .go p k => Pairs m false p ∧ Pairs m has k
  | has, .make _ k => ∀ c, Pairs m has (k c)
  | has, .send _ _ k => Pairs m has k
  | has, .parked _ _ k => Pairs m has k
  | has, .recv _ k => ∀ x, Pairs m has (k x)
  | has, .poll _ k => ∀ x, Pairs m has (k x)
  | has, .close _ k => Pairs m has k
  | has, .lock m' k => if m' = m then Pairs m true k else Pairs m has k
  | has, .tryLock m' k => if m' = m then Pairs m true (k true) ∧ Pairs m has (k false) else ∀ b, Pairs m has (k b)
  | has, .unlock m' k => if m' = m then has = true ∧ Pairs m false k else Pairs m has k
  | has, .load _ k => ∀ x, Pairs m has (k x)
  | has, .store _ _ k => Pairs m has k
end Spec
open Spec

namespace Abandon
/-- Who has the Mutex. -/
structure Inv (m : Nat) (h : Option Nat) (s : Config V E) : Prop where
  procs : ∀ (i : Nat) (q : Proc V E), s.procs[i]? = some q → Pairs m (decide (h = some i)) q
  holder : ∀ i, h = some i → i < s.procs.length ∧ s.locks m = true

theorem get_set' {α : Type} {l : List α} {i j : Nat} {a b : α} (h : (l.set i a)[j]? = some b) :
    (j = i ∧ b = a) ∨ (j ≠ i ∧ l[j]? = some b) := by
  rw [List.getElem?_set] at h
  split at h
  · split at h
    · cases h; exact .inl ⟨by omega, rfl⟩
    · cases h
  · exact .inr ⟨by omega, h⟩

theorem lt_of {α : Type} {l : List α} {i : Nat} {a : α} (h : l[i]? = some a) : i < l.length :=
  (List.getElem?_eq_some_iff.1 h).1

theorem Inv.to {m i : Nat} {h : Option Nat} {s : Config V E} {p k : Proc V E} (I : Inv m h s) (hi : s.procs[i]? = some p)
    (hk : ∀ b, Pairs m b p → Pairs m b k) : Inv m h (s.to i k) := by
  refine ⟨fun j q hj => ?_, fun j hj => ?_⟩
  · rcases get_set' hj with ⟨rfl, rfl⟩ | ⟨_, hj⟩
    · exact hk _ (I.procs _ _ hi)
    · exact I.procs _ _ hj
  · obtain ⟨h1, h2⟩ := I.holder j hj
    exact ⟨by rw [show (s.to i k).procs = s.procs.set i k from rfl, List.length_set]; exact h1, h2⟩

theorem Inv.same {m : Nat} {h : Option Nat} {s s' : Config V E} (I : Inv m h s) (hp : s'.procs = s.procs)
    (hl : s'.locks m = s.locks m) : Inv m h s' :=
  ⟨fun i q hq => I.procs i q (by rw [← hp]; exact hq), fun i hi => by rw [hp, hl]; exact I.holder i hi⟩

theorem sends_pairs {m i c : Nat} {v : V} {k : Proc V E} {s : Config V E} (h : SendsAt s i c v k) :
    ∃ p, s.procs[i]? = some p ∧ (∀ b, Pairs m b p → Pairs m b k) ∧ (∀ r, p ≠ .recv c r) ∧ ∀ r, p ≠ .poll c r := by
  cases h with
  | fresh h => exact ⟨_, h, fun b hb => hb, (by rintro r ⟨⟩), (by rintro r ⟨⟩)⟩
  | waiting h => exact ⟨_, h, fun b hb => hb, (by rintro r ⟨⟩), (by rintro r ⟨⟩)⟩

theorem Inv.meet {m i j c : Nat} {v : V} {h : Option Nat} {s : Config V E} {q k l : Proc V E} (I : Inv m h s)
    (hs : SendsAt s i c v k) (hj : s.procs[j]? = some q) (hq : (∃ r, q = .recv c r) ∨ ∃ r, q = .poll c r)
    (hl : ∀ b, Pairs m b q → Pairs m b l) : Inv m h ((s.to i k).to j l) := by
  obtain ⟨p, hp, hk, n1, n2⟩ := sends_pairs (m := m) hs
  have hne : i ≠ j := by
    rintro rfl
    rw [hp] at hj
    cases hj
    rcases hq with ⟨r, rfl⟩ | ⟨r, rfl⟩
    · exact n1 r rfl
    · exact n2 r rfl
  refine (I.to hp hk).to (p := q) ?_ hl
  show (s.procs.set i k)[j]? = some q
  rw [List.getElem?_set_ne hne]
  exact hj

theorem upd_ne {β : Type} {f : Nat → β} {a x : Nat} {b : β} (h : x ≠ a) : upd f a b x = f x := if_neg h

/-- Whose turn it is after a step. -/
theorem Inv.step {m : Nat} {h : Option Nat} {s s' : Config V E} {e : Option E} (I : Inv m h s) (st : Step s e s') :
    ∃ h', Inv m h' s' := by
  cases st with
  | emit hc hi => exact ⟨h, I.to hi fun b hb => hb⟩
  | tau hc hi => exact ⟨h, I.to hi fun b hb => hb⟩
  | @go i p k hc hi =>
    have J := I.to (k := k) hi fun b hb => hb.2
    have hp := (I.procs _ _ hi).1
    refine ⟨h, fun j q hj => ?_, fun j hj => ?_⟩
    · have hj : (s.procs.set i k ++ [p])[j]? = some q := hj
      rw [List.getElem?_append] at hj
      split at hj
      · exact J.procs j q hj
      · rename_i hlt
        rw [List.length_set] at hj hlt
        have : j = s.procs.length := by
          have := lt_of hj
          simp only [List.length_singleton] at this
          omega
        subst this
        rw [Nat.sub_self] at hj
        cases hj
        rw [decide_eq_false]
        · exact hp
        · intro hh
          exact absurd (I.holder _ hh).1 (Nat.lt_irrefl _)
    · obtain ⟨h1, h2⟩ := I.holder j hj
      refine ⟨?_, h2⟩
      show j < (s.procs.set i k ++ [p]).length
      rw [List.length_append, List.length_set]
      omega
  | make hc hi => exact ⟨h, (I.to hi fun b hb => hb _).same rfl rfl⟩
  | park hc hi _ _ => exact ⟨h, I.to hi fun b hb => hb⟩
  | sendBuf hc hs _ _ _ =>
    obtain ⟨p, hp, hk, -⟩ := sends_pairs (m := m) hs
    exact ⟨h, (I.to hp hk).same rfl rfl⟩
  | sendClosed => exact ⟨h, I.same rfl rfl⟩
  | meet hc hs hj _ _ _ => exact ⟨h, I.meet hs hj (.inl ⟨_, rfl⟩) fun b hb => hb _⟩
  | meetPoll hc hs hj _ _ _ => exact ⟨h, I.meet hs hj (.inr ⟨_, rfl⟩) fun b hb => hb _⟩
  | recvBuf hc hj _ _ => exact ⟨h, (I.to hj fun b hb => hb _).same rfl rfl⟩
  | pollBuf hc hj _ _ => exact ⟨h, (I.to hj fun b hb => hb _).same rfl rfl⟩
  | recvClosed hc hj _ _ _ => exact ⟨h, I.to hj fun b hb => hb _⟩
  | pollClosed hc hj _ _ _ => exact ⟨h, I.to hj fun b hb => hb _⟩
  | pollDefault hc hj _ _ _ _ => exact ⟨h, I.to hj fun b hb => hb _⟩
  | @close i c k ch hc hi _ _ => exact ⟨h, (I.to (k := k) hi fun b hb => hb).same rfl rfl⟩
  | closeClosed => exact ⟨h, I.same rfl rfl⟩
  | @lock i m' k hc hi hl =>
    by_cases hm : m' = m
    · subst hm
      have hn : h = none := by
        cases h with
        | none => rfl
        | some j => have := (I.holder j rfl).2; rw [hl] at this; cases this
      subst hn
      refine ⟨some i, fun j q hj => ?_, fun j hj => ?_⟩
      · rcases get_set' hj with ⟨rfl, rfl⟩ | ⟨hne, hj⟩
        · have := I.procs _ _ hi
          simp only [Pairs, if_true] at this
          simpa using this
        · have := I.procs _ _ hj
          rw [decide_eq_false (fun h => hne (Option.some.inj h).symm)]
          simpa using this
      · cases hj
        refine ⟨?_, if_pos rfl⟩
        show i < (s.procs.set i k).length
        rw [List.length_set]
        exact lt_of hi
    · exact ⟨h, (I.to hi fun b hb => by simpa only [Pairs, if_neg hm] using hb).same rfl (upd_ne (fun h => hm h.symm))⟩
  | @tryLock i m' k hc hi hl =>
    by_cases hm : m' = m
    · subst hm
      have hn : h = none := by
        cases h with
        | none => rfl
        | some j => have := (I.holder j rfl).2; rw [hl] at this; cases this
      subst hn
      refine ⟨some i, fun j q hj => ?_, fun j hj => ?_⟩
      · rcases get_set' hj with ⟨rfl, rfl⟩ | ⟨hne, hj⟩
        · have := I.procs _ _ hi
          simp only [Pairs, if_true] at this
          simpa using this.1
        · have := I.procs _ _ hj
          rw [decide_eq_false (fun h => hne (Option.some.inj h).symm)]
          simpa using this
      · cases hj
        refine ⟨?_, if_pos rfl⟩
        show i < (s.procs.set i (k true)).length
        rw [List.length_set]
        exact lt_of hi
    · refine ⟨h, (I.to hi fun b hb => ?_).same rfl (upd_ne (fun h => hm h.symm))⟩
      simp only [Pairs, if_neg hm] at hb
      exact hb true
  | @tryLockFails i m' k hc hi hl =>
    refine ⟨h, I.to hi fun b hb => ?_⟩
    by_cases hm : m' = m
    · simp only [Pairs, if_pos hm] at hb
      exact hb.2
    · simp only [Pairs, if_neg hm] at hb
      exact hb false
  | @unlock i m' k hc hi hl =>
    by_cases hm : m' = m
    · subst hm
      have hp := I.procs _ _ hi
      simp only [Pairs, if_true, decide_eq_true_eq] at hp
      obtain ⟨rfl, hp⟩ := hp
      refine ⟨none, fun j q hj => ?_, fun j hj => by cases hj⟩
      rcases get_set' hj with ⟨rfl, rfl⟩ | ⟨hne, hj⟩
      · simpa using hp
      · have := I.procs _ _ hj
        rw [decide_eq_false (fun h => hne (Option.some.inj h).symm)] at this
        simpa using this
    · exact ⟨h, (I.to hi fun b hb => by simpa only [Pairs, if_neg hm] using hb).same rfl (upd_ne (fun h => hm h.symm))⟩
  | unlockFree => exact ⟨h, I.same rfl rfl⟩
  | load hc hi => exact ⟨h, I.to hi fun b hb => hb _⟩
  | @store i a v k hc hi => exact ⟨h, (I.to (k := k) hi fun b hb => hb).same rfl rfl⟩

theorem Inv.run {m : Nat} {h : Option Nat} {s s' : Config V E} {tr : List E} (I : Inv m h s) (r : Run s tr s') :
    ∃ h', Inv m h' s' := by
  induction r with
  | nil => exact ⟨h, I⟩
  | step _ st ih => obtain ⟨h', I'⟩ := ih; exact I'.step st

theorem start_inv {m : Nat} {vars : Nat → V} {p : Proc V E} (hp : Pairs m false p) : Inv m none (start vars p) := by
  refine ⟨fun i q hq => ?_, fun i hi => by cases hi⟩
  cases i with
  | zero => cases hq; exact hp
  | succ i => cases hq
end Abandon

/-- **C170**, mutual exclusion in any program: if every goroutine unlocks the Mutex only when it has it itself, then in every
state of every execution at most one goroutine has it (is somewhere where it may unlock it without locking it first), a
goroutine that has it finds it locked, and no Unlock of it panics. -/
theorem C170_exclusion {m : Nat} {vars : Nat → V} {p : Proc V E} (hp : Pairs m false p) {tr : List E} {s : Config V E}
    (r : Run (start vars p) tr s) :
    (∀ (i j : Nat) (q q' : Proc V E), s.procs[i]? = some q → s.procs[j]? = some q' → ¬ Pairs m false q → ¬ Pairs m false q' → i = j) ∧
    (∀ (i : Nat) (q : Proc V E), s.procs[i]? = some q → ¬ Pairs m false q → s.locks m = true ∧ Pairs m true q) ∧
    (∀ (i : Nat) (k : Proc V E), s.procs[i]? = some (.unlock m k) → s.locks m = true) := by
  obtain ⟨h, I⟩ := (Abandon.start_inv hp).run r
  have key : ∀ (i : Nat) (q : Proc V E), s.procs[i]? = some q → ¬ Pairs m false q → h = some i := by
    intro i q hq hn
    apply Classical.byContradiction
    intro hc
    have := I.procs i q hq
    rw [decide_eq_false hc] at this
    exact hn this
  have lk : ∀ (i : Nat) (q : Proc V E), s.procs[i]? = some q → ¬ Pairs m false q → s.locks m = true ∧ Pairs m true q := by
    intro i q hq hn
    have hh := key i q hq hn
    have := I.procs i q hq
    rw [decide_eq_true hh] at this
    exact ⟨(I.holder i hh).2, this⟩
  refine ⟨fun i j q q' hi hj h1 h2 => ?_, lk, fun i k hi => (lk i _ hi ?_).1⟩
  · have a := key i q hi h1
    rw [key j q' hj h2] at a
    exact (Option.some.inj a).symm
  · simp [Pairs]

namespace Abandon
/-- Everybody is outside and the Mutex is locked. -/
structure Lost (m : Nat) (s : Config V E) : Prop where
  procs : ∀ (i : Nat) (q : Proc V E), s.procs[i]? = some q → Pairs m false q
  locked : s.locks m = true

theorem Lost.to {m i : Nat} {s : Config V E} {p k : Proc V E} (L : Lost m s) (hi : s.procs[i]? = some p)
    (hk : Pairs m false p → Pairs m false k) : Lost m (s.to i k) := by
  refine ⟨fun j q hj => ?_, L.locked⟩
  rcases get_set' hj with ⟨rfl, rfl⟩ | ⟨_, hj⟩
  · exact hk (L.procs _ _ hi)
  · exact L.procs _ _ hj

theorem Lost.same {m : Nat} {s s' : Config V E} (L : Lost m s) (hp : s'.procs = s.procs) (hl : s'.locks m = s.locks m) :
    Lost m s' := ⟨fun i q hq => L.procs i q (by rw [← hp]; exact hq), by rw [hl]; exact L.locked⟩

theorem set_other {i j : Nat} {l : List (Proc V E)} {p q k : Proc V E} (hi : l[i]? = some p) (hj : l[j]? = some q)
    (hne : p ≠ q) : (l.set i k)[j]? = some q := by
  rw [List.getElem?_set_ne]
  · exact hj
  · rintro rfl
    rw [hi] at hj
    exact hne (Option.some.inj hj)

/-- Nothing changes that. -/
theorem Lost.step {m : Nat} {s s' : Config V E} {e : Option E} (L : Lost m s) (st : Step s e s') :
    Lost m s' ∧ (∀ (j : Nat) (l : Proc V E), s.procs[j]? = some (.lock m l) → s'.procs[j]? = some (.lock m l)) ∧
    ∀ (j : Nat) (l : Bool → Proc V E), s.procs[j]? = some (.tryLock m l) →
      s'.procs[j]? = some (.tryLock m l) ∨ s'.procs[j]? = some (l false) := by
  have one : ∀ {i : Nat} {p k : Proc V E} {s' : Config V E}, s.procs[i]? = some p → (Pairs m false p → Pairs m false k) →
      (∀ l, p ≠ .lock m l) → (∀ l, p ≠ .tryLock m l) → s'.procs = (s.to i k).procs → s'.locks m = s.locks m →
      Lost m s' ∧ (∀ (j : Nat) (l : Proc V E), s.procs[j]? = some (.lock m l) → s'.procs[j]? = some (.lock m l)) ∧
      ∀ (j : Nat) (l : Bool → Proc V E), s.procs[j]? = some (.tryLock m l) →
        s'.procs[j]? = some (.tryLock m l) ∨ s'.procs[j]? = some (l false) := by
    intro i p k s' hi hk n1 n2 hp hl
    refine ⟨(L.to hi hk).same hp hl, fun j l hj => ?_, fun j l hj => .inl ?_⟩
    · rw [hp]; exact set_other hi hj (n1 l)
    · rw [hp]; exact set_other hi hj (n2 l)
  have idle : ∀ {s' : Config V E}, s'.procs = s.procs → s'.locks m = s.locks m →
      Lost m s' ∧ (∀ (j : Nat) (l : Proc V E), s.procs[j]? = some (.lock m l) → s'.procs[j]? = some (.lock m l)) ∧
      ∀ (j : Nat) (l : Bool → Proc V E), s.procs[j]? = some (.tryLock m l) →
        s'.procs[j]? = some (.tryLock m l) ∨ s'.procs[j]? = some (l false) := by
    intro s' hp hl
    exact ⟨L.same hp hl, fun j l hj => by rw [hp]; exact hj, fun j l hj => .inl (by rw [hp]; exact hj)⟩
  have sender : ∀ {i c : Nat} {v : V} {k : Proc V E}, SendsAt s i c v k →
      ∃ p, s.procs[i]? = some p ∧ (Pairs m false p → Pairs m false k) ∧ (∀ l, p ≠ .lock m l) ∧ (∀ l, p ≠ .tryLock m l) ∧
        (∀ r, p ≠ .recv c r) ∧ ∀ r, p ≠ .poll c r := by
    intro i c v k h
    cases h with
    | fresh h => exact ⟨_, h, id, (by rintro r ⟨⟩), (by rintro r ⟨⟩), (by rintro r ⟨⟩), (by rintro r ⟨⟩)⟩
    | waiting h => exact ⟨_, h, id, (by rintro r ⟨⟩), (by rintro r ⟨⟩), (by rintro r ⟨⟩), (by rintro r ⟨⟩)⟩
  have meets : ∀ {i j c : Nat} {v : V} {k q r : Proc V E}, SendsAt s i c v k → s.procs[j]? = some q →
      ((∃ r, q = .recv c r) ∨ ∃ r, q = .poll c r) → (Pairs m false q → Pairs m false r) →
      Lost m ((s.to i k).to j r) ∧
      (∀ (j' : Nat) (l : Proc V E), s.procs[j']? = some (.lock m l) → ((s.to i k).to j r).procs[j']? = some (.lock m l)) ∧
      ∀ (j' : Nat) (l : Bool → Proc V E), s.procs[j']? = some (.tryLock m l) →
        ((s.to i k).to j r).procs[j']? = some (.tryLock m l) ∨ ((s.to i k).to j r).procs[j']? = some (l false) := by
    intro i j c v k q r hs hj hq hr
    obtain ⟨p, hp, hk, n1, n2, n3, n4⟩ := sender hs
    have hpq : p ≠ q := by
      rintro rfl
      rcases hq with ⟨r, h⟩ | ⟨r, h⟩
      · exact n3 r h
      · exact n4 r h
    have hj' : (s.to i k).procs[j]? = some q := set_other hp hj hpq
    have q1 : ∀ l, q ≠ .lock m l := by rcases hq with ⟨r, rfl⟩ | ⟨r, rfl⟩ <;> rintro l ⟨⟩
    have q2 : ∀ l, q ≠ .tryLock m l := by rcases hq with ⟨r, rfl⟩ | ⟨r, rfl⟩ <;> rintro l ⟨⟩
    refine ⟨(L.to hp hk).to hj' hr, fun j2 l h => ?_, fun j2 l h => .inl ?_⟩
    · exact set_other hj' (set_other (k := k) hp h (n1 l)) (q1 l)
    · exact set_other hj' (set_other (k := k) hp h (n2 l)) (q2 l)
  cases st with
  | @emit i e k hc hi => exact one (k := k) hi (fun h => h) (by rintro l ⟨⟩) (by rintro l ⟨⟩) rfl rfl
  | @tau i k hc hi => exact one (k := k) hi (fun h => h) (by rintro l ⟨⟩) (by rintro l ⟨⟩) rfl rfl
  | @go i p k hc hi =>
    have J := L.to (k := k) hi fun hb => hb.2
    have hp := (L.procs _ _ hi).1
    have app : ∀ (j : Nat) (q : Proc V E), (s.procs.set i k)[j]? = some q → (s.procs.set i k ++ [p])[j]? = some q := by
      intro j q h
      rw [List.getElem?_append_left (lt_of h)]
      exact h
    refine ⟨⟨fun j q hj => ?_, L.locked⟩, fun j l hj => app _ _ (set_other hi hj (by rintro ⟨⟩)),
      fun j l hj => .inl (app _ _ (set_other hi hj (by rintro ⟨⟩)))⟩
    have hj : (s.procs.set i k ++ [p])[j]? = some q := hj
    rw [List.getElem?_append] at hj
    split at hj
    · exact J.procs j q hj
    · rename_i hlt
      have hx : j - (s.procs.set i k).length = 0 := by
        have := lt_of hj
        simp only [List.length_singleton] at this
        omega
      rw [hx] at hj
      cases hj
      exact hp
  | make hc hi => exact one hi (fun h => h _) (by rintro l ⟨⟩) (by rintro l ⟨⟩) rfl rfl
  | @park i c v k ch hc hi _ _ => exact one (k := .parked c v k) hi (fun h => h) (by rintro l ⟨⟩) (by rintro l ⟨⟩) rfl rfl
  | sendBuf hc hs _ _ _ =>
    obtain ⟨p, hp, hk, n1, n2, -⟩ := sender hs
    exact one hp hk n1 n2 rfl rfl
  | sendClosed => exact idle rfl rfl
  | meet hc hs hj _ _ _ => exact meets hs hj (.inl ⟨_, rfl⟩) fun hb => hb _
  | meetPoll hc hs hj _ _ _ => exact meets hs hj (.inr ⟨_, rfl⟩) fun hb => hb _
  | recvBuf hc hj _ _ => exact one hj (fun h => h _) (by rintro l ⟨⟩) (by rintro l ⟨⟩) rfl rfl
  | pollBuf hc hj _ _ => exact one hj (fun h => h _) (by rintro l ⟨⟩) (by rintro l ⟨⟩) rfl rfl
  | recvClosed hc hj _ _ _ => exact one hj (fun h => h _) (by rintro l ⟨⟩) (by rintro l ⟨⟩) rfl rfl
  | pollClosed hc hj _ _ _ => exact one hj (fun h => h _) (by rintro l ⟨⟩) (by rintro l ⟨⟩) rfl rfl
  | pollDefault hc hj _ _ _ _ => exact one hj (fun h => h _) (by rintro l ⟨⟩) (by rintro l ⟨⟩) rfl rfl
  | @close i c k ch hc hi _ _ => exact one (k := k) hi (fun h => h) (by rintro l ⟨⟩) (by rintro l ⟨⟩) rfl rfl
  | closeClosed => exact idle rfl rfl
  | @lock i m' k hc hi hl =>
    have hm : m' ≠ m := by rintro rfl; rw [L.locked] at hl; cases hl
    refine one (k := k) hi (fun h => ?_) (by rintro l ⟨⟩; exact hm rfl) (by rintro l ⟨⟩) rfl (upd_ne (fun h => hm h.symm))
    simpa only [Pairs, if_neg hm] using h
  | @tryLock i m' k hc hi hl =>
    have hm : m' ≠ m := by rintro rfl; rw [L.locked] at hl; cases hl
    refine one (k := k true) hi (fun h => ?_) (by rintro l ⟨⟩) (by rintro l ⟨⟩; exact hm rfl) rfl (upd_ne (fun h => hm h.symm))
    simp only [Pairs, if_neg hm] at h
    exact h true
  | @tryLockFails i m' k hc hi hl =>
    have hk : Pairs m false (.tryLock m' k) → Pairs m false (k false) := by
      intro h
      by_cases hm : m' = m
      · simp only [Pairs, if_pos hm] at h; exact h.2
      · simp only [Pairs, if_neg hm] at h; exact h false
    refine ⟨L.to hi hk, fun j l hj => set_other hi hj (by rintro ⟨⟩), fun j l hj => ?_⟩
    by_cases hij : i = j
    · subst hij
      rw [hi] at hj
      cases hj
      refine .inr ?_
      show (s.procs.set i (k false))[i]? = _
      rw [List.getElem?_set_self (lt_of hi)]
    · refine .inl ?_
      show (s.procs.set i (k false))[j]? = _
      rw [List.getElem?_set_ne hij]
      exact hj
  | @unlock i m' k hc hi hl =>
    have hm : m' ≠ m := by
      rintro rfl
      have := L.procs _ _ hi
      simp [Pairs] at this
    refine one (k := k) hi (fun h => ?_) (by rintro l ⟨⟩) (by rintro l ⟨⟩) rfl (upd_ne (fun h => hm h.symm))
    simpa only [Pairs, if_neg hm] using h
  | unlockFree => exact idle rfl rfl
  | load hc hi => exact one hi (fun h => h _) (by rintro l ⟨⟩) (by rintro l ⟨⟩) rfl rfl
  | @store i a v k hc hi => exact one (k := k) hi (fun h => h) (by rintro l ⟨⟩) (by rintro l ⟨⟩) rfl rfl

theorem Lost.run {m : Nat} {s s' : Config V E} {tr : List E} (L : Lost m s) (r : Run s tr s') :
    Lost m s' ∧ ∀ (j : Nat) (l : Proc V E), s.procs[j]? = some (.lock m l) → s'.procs[j]? = some (.lock m l) := by
  induction r with
  | nil => exact ⟨L, fun _ _ h => h⟩
  | step _ st ih =>
    obtain ⟨L', h⟩ := ih
    obtain ⟨L2, h2, -⟩ := L'.step st
    exact ⟨L2, fun j l hj => h2 j l (h j l hj)⟩
end Abandon

/-- **C170**, in any program: once the Mutex is locked and no goroutine has it (whoever locked it has returned, has ended by
runtime.Goexit, or has recovered from a panic, without calling Unlock), it stays locked for ever: a goroutine that waits in
Lock waits for ever, and every TryLock returns an error. -/
theorem C170_lost {m : Nat} {s : Config V E} (hp : ∀ (i : Nat) (q : Proc V E), s.procs[i]? = some q → Pairs m false q)
    (hl : s.locks m = true) {tr : List E} {s' : Config V E} (r : Run s tr s') :
    s'.locks m = true ∧
    (∀ (i : Nat) (k : Proc V E), s.procs[i]? = some (.lock m k) → s'.procs[i]? = some (.lock m k)) ∧
    (∀ (i : Nat) (k : Bool → Proc V E), s'.procs[i]? = some (.tryLock m k) →
      ∀ e s'', Step s' e s'' → s''.procs[i]? = some (.tryLock m k) ∨ s''.procs[i]? = some (k false)) ∧
    (∀ (i : Nat) (k : Proc V E), s'.procs[i]? = some (.lock m k) →
      ∀ e s'', Step s' e s'' → s''.procs[i]? = some (.lock m k)) := by
  obtain ⟨L, h⟩ := (Abandon.Lost.mk hp hl).run r
  exact ⟨L.locked, h, fun i k hi e s'' st => (L.step st).2.2 i k hi, fun i k hi e s'' st => (L.step st).2.1 i k hi⟩

/-! ### A goroutine that does not unlock -/

namespace Abandon
open Mutex
variable {v : V}

/-- A goroutine that gets the Mutex by Lock or TryLock, works on the value and returns without Unlock, because it relies on
sync.go:53 ("The lock will be unlocked when the guard is dropped") or because it panics or calls runtime.Goexit. -/
def leaver (mutex : Mutex) (try_ : Bool) (i : Nat) (gs : List (V → V)) : Proc V (Event V) :=
  if try_ then mutex.tryLock fun
    | some ptr => .emit (.entered i gs) (body ptr gs .done)
    | none => .emit (.failed i) .done
  else mutex.lock_ fun ptr => .emit (.entered i gs) (body ptr gs .done)

/-- The program of C81 with one such goroutine, number 0. -/
def program (v : V) (try_ : Bool) (gs : List (V → V)) (clients : List (List (Bool × List (V → V)))) : Config V (Event V) :=
  start (fun _ => v) (.go (leaver (new 0 0) try_ 0 gs)
    (goAll ((clients.zipIdx 1).map fun c => client (new 0 0) c.2 c.1) .done))

theorem body_pairs {m ptr : Nat} {b : Bool} {gs : List (V → V)} {k : Proc V (Event V)} (h : Pairs m b k) :
    Pairs m b (body ptr gs k) := by
  induction gs with
  | nil => exact h
  | cons g gs ih => exact fun _ => ih

theorem client_pairs (m i : Nat) (r : List (Bool × List (V → V))) : Pairs m false (client (new 0 0) i r) := by
  induction r with
  | nil => trivial
  | cons a r ih =>
    obtain ⟨t, gs⟩ := a
    cases t with
    | false =>
      by_cases hm : 0 = m
      · subst hm
        show Pairs 0 false (.lock 0 _)
        simp only [Pairs, if_true]
        exact body_pairs ⟨rfl, ih⟩
      · show Pairs m false (.lock 0 _)
        simp only [Pairs, if_neg hm]
        refine body_pairs ?_
        show Pairs m false (.unlock 0 _)
        simp only [Pairs, if_neg hm]
        exact ih
    | true =>
      by_cases hm : 0 = m
      · subst hm
        show Pairs 0 false (.tryLock 0 _)
        simp only [Pairs, if_true]
        exact ⟨body_pairs ⟨rfl, ih⟩, ih⟩
      · show Pairs m false (.tryLock 0 _)
        simp only [Pairs, if_neg hm]
        intro b
        cases b with
        | false => exact ih
        | true =>
          refine body_pairs (k := .emit _ (.unlock 0 _)) ?_
          simp only [Pairs, if_neg hm]
          exact ih

theorem goAll_pairs {m : Nat} {b : Bool} {ps : List (Proc V E)} (h : ∀ p, p ∈ ps → Pairs m false p) : Pairs m b (goAll ps .done) := by
  induction ps with
  | nil => trivial
  | cons p ps ih => exact ⟨h p (by simp), ih fun q hq => h q (by simp [hq])⟩

theorem leaver_pairs (m : Nat) (t : Bool) (i : Nat) (gs : List (V → V)) : Pairs m false (leaver (new 0 0) t i gs) := by
  cases t with
  | false =>
    show Pairs m false (.lock 0 _)
    by_cases hm : 0 = m
    · simp only [Pairs, if_pos hm]; exact body_pairs trivial
    · simp only [Pairs, if_neg hm]; exact body_pairs trivial
  | true =>
    show Pairs m false (.tryLock 0 _)
    by_cases hm : 0 = m
    · simp only [Pairs, if_pos hm]; exact ⟨body_pairs trivial, trivial⟩
    · simp only [Pairs, if_neg hm]
      intro b
      cases b with
      | false => trivial
      | true => exact body_pairs trivial

/-- What is left to do for a goroutine that does not have the Mutex; `wait` says whether it will call Lock. -/
inductive Outside : Bool → Proc V (Event V) → Prop
  | idle (i : Nat) (r : List (Bool × List (V → V))) : Outside (r.any fun a => !a.1) (client (new 0 0) i r)
  | failing (i : Nat) (r : List (Bool × List (V → V))) :
      Outside (r.any fun a => !a.1) (.emit (.failed i) (client (new 0 0) i r))
  | main (k : Nat) (cs : List (List (Bool × List (V → V)))) :
      Outside (cs.any fun r => r.any fun a => !a.1) (goAll ((cs.zipIdx k).map fun c => client (new 0 0) c.2 c.1) .done)

structure Out (w : Bool) (s : Config V (Event V)) : Prop where
  procs : ∀ (i : Nat) (q : Proc V (Event V)), s.procs[i]? = some q → ∃ b, Outside b q
  waits : w = true → ∃ (i : Nat) (q : Proc V (Event V)), s.procs[i]? = some q ∧ Outside true q
  locked : s.locks 0 = true
  alive : s.crashed = false

theorem outside_cases {b : Bool} {q : Proc V (Event V)} (h : Outside b q) :
    (q = .done ∧ b = false) ∨ (∃ k, q = .lock 0 k ∧ b = true) ∨ (∃ k, q = .tryLock 0 k ∧ Outside b (k false)) ∨
    (∃ i k, q = .emit (.failed i) k ∧ Outside b k) ∨
    ∃ p k b1 b2, q = .go p k ∧ Outside b1 p ∧ Outside b2 k ∧ b = (b1 || b2) := by
  cases h with
  | idle i r =>
    match r with
    | [] => exact .inl ⟨rfl, rfl⟩
    | (false, gs) :: r => exact .inr (.inl ⟨_, rfl, rfl⟩)
    | (true, gs) :: r => exact .inr (.inr (.inl ⟨_, rfl, .failing i r⟩))
  | failing i r => exact .inr (.inr (.inr (.inl ⟨i, _, rfl, .idle i r⟩)))
  | main k cs =>
    match cs with
    | [] => exact .inl ⟨rfl, rfl⟩
    | r :: cs => exact .inr (.inr (.inr (.inr ⟨_, _, _, _, rfl, .idle k r, .main (k + 1) cs, rfl⟩)))

theorem Out.to {w : Bool} {i : Nat} {s : Config V (Event V)} {p k : Proc V (Event V)} (O : Out w s) (hi : s.procs[i]? = some p)
    (hk : ∀ b, Outside b p → Outside b k) : Out w (s.to i k) := by
  refine ⟨fun j q hj => ?_, fun hw => ?_, O.locked, O.alive⟩
  · rcases get_set' hj with ⟨rfl, rfl⟩ | ⟨_, hj⟩
    · obtain ⟨b, hb⟩ := O.procs _ _ hi
      exact ⟨b, hk b hb⟩
    · exact O.procs _ _ hj
  · obtain ⟨j, q, hj, hq⟩ := O.waits hw
    by_cases hij : i = j
    · subst hij
      rw [hi] at hj
      cases hj
      refine ⟨i, k, ?_, hk _ hq⟩
      show (s.procs.set i k)[i]? = _
      rw [List.getElem?_set_self (lt_of hi)]
    · refine ⟨j, q, ?_, hq⟩
      show (s.procs.set i k)[j]? = _
      rw [List.getElem?_set_ne hij]
      exact hj

/-- The clients only fail. -/
theorem Out.step {w : Bool} {s s' : Config V (Event V)} {e : Option (Event V)} (O : Out w s) (st : Step s e s') :
    Out w s' ∧ ∀ x, e = some x → ∃ i, x = .failed i := by
  have no : ∀ {i : Nat} {p : Proc V (Event V)}, s.procs[i]? = some p → p ≠ .done → (∀ k, p ≠ .lock 0 k) →
      (∀ k, p ≠ .tryLock 0 k) → (∀ i k, p ≠ .emit (.failed i) k) → (∀ q k, p ≠ .go q k) → False := by
    intro i p hp h1 h2 h3 h4 h5
    obtain ⟨b, hb⟩ := O.procs i p hp
    rcases outside_cases hb with ⟨h, -⟩ | ⟨k, h, -⟩ | ⟨k, h, -⟩ | ⟨i, k, h, -⟩ | ⟨p, k, b1, b2, h, -⟩
    · exact h1 h
    · exact h2 k h
    · exact h3 k h
    · exact h4 i k h
    · exact h5 p k h
  have sends : ∀ {i c : Nat} {v : V} {k : Proc V (Event V)}, SendsAt s i c v k → False := by
    intro i c v k h
    cases h with
    | fresh h => exact no h (by rintro ⟨⟩) (by rintro k ⟨⟩) (by rintro k ⟨⟩) (by rintro i k ⟨⟩) (by rintro q k ⟨⟩)
    | waiting h => exact no h (by rintro ⟨⟩) (by rintro k ⟨⟩) (by rintro k ⟨⟩) (by rintro i k ⟨⟩) (by rintro q k ⟨⟩)
  cases st with
  | @emit i e k hc hi =>
    refine ⟨O.to hi fun b hb => ?_, fun x hx => ?_⟩
    · rcases outside_cases hb with ⟨h, -⟩ | ⟨k, h, -⟩ | ⟨k, h, -⟩ | ⟨i, k, h, hk⟩ | ⟨p, k, b1, b2, h, -⟩
      · cases h
      · cases h
      · cases h
      · cases h; exact hk
      · cases h
    · cases hx
      obtain ⟨b, hb⟩ := O.procs _ _ hi
      rcases outside_cases hb with ⟨h, -⟩ | ⟨k, h, -⟩ | ⟨k, h, -⟩ | ⟨i, k, h, hk⟩ | ⟨p, k, b1, b2, h, -⟩
      · cases h
      · cases h
      · cases h
      · cases h; exact ⟨i, rfl⟩
      · cases h
  | @go i p k hc hi =>
    refine ⟨?_, fun x hx => by cases hx⟩
    have parts : ∀ b, Outside b (.go p k) → ∃ b1 b2, Outside b1 p ∧ Outside b2 k ∧ b = (b1 || b2) := by
      intro b hb
      rcases outside_cases hb with ⟨h, -⟩ | ⟨k, h, -⟩ | ⟨k, h, -⟩ | ⟨i, k, h, hk⟩ | ⟨p, k, b1, b2, h, h1, h2, h3⟩
      · cases h
      · cases h
      · cases h
      · cases h
      · cases h; exact ⟨b1, b2, h1, h2, h3⟩
    have hlen : (s.procs.set i k).length = s.procs.length := List.length_set
    have last : (s.procs.set i k ++ [p])[s.procs.length]? = some p := by
      rw [List.getElem?_append_right (by omega), hlen, Nat.sub_self]; rfl
    have self : (s.procs.set i k ++ [p])[i]? = some k := by
      rw [List.getElem?_append_left (by rw [hlen]; exact lt_of hi), List.getElem?_set_self (lt_of hi)]
    refine ⟨fun j q hj => ?_, fun hw => ?_, O.locked, O.alive⟩
    · obtain ⟨b, hb⟩ := O.procs _ _ hi
      obtain ⟨b1, b2, h1, h2, -⟩ := parts b hb
      have hj : (s.procs.set i k ++ [p])[j]? = some q := hj
      rw [List.getElem?_append] at hj
      split at hj
      · rcases get_set' hj with ⟨rfl, rfl⟩ | ⟨_, hj⟩
        · exact ⟨b2, h2⟩
        · exact O.procs _ _ hj
      · have hx : j - (s.procs.set i k).length = 0 := by
          have := lt_of hj
          simp only [List.length_singleton] at this
          omega
        rw [hx] at hj
        cases hj
        exact ⟨b1, h1⟩
    · obtain ⟨j, q, hj, hq⟩ := O.waits hw
      by_cases hij : i = j
      · subst hij
        rw [hi] at hj
        cases hj
        obtain ⟨b1, b2, h1, h2, h3⟩ := parts true hq
        cases b1 with
        | true => exact ⟨s.procs.length, p, last, h1⟩
        | false =>
          cases b2 with
          | true => exact ⟨i, k, self, h2⟩
          | false => cases h3
      · refine ⟨j, q, ?_, hq⟩
        show (s.procs.set i k ++ [p])[j]? = _
        rw [List.getElem?_append_left (by rw [hlen]; exact lt_of hj), List.getElem?_set_ne hij]
        exact hj
  | @lock i m k hc hi hl =>
    exfalso
    obtain ⟨b, hb⟩ := O.procs _ _ hi
    rcases outside_cases hb with ⟨h, -⟩ | ⟨k, h, -⟩ | ⟨k, h, -⟩ | ⟨i, k, h, hk⟩ | ⟨p, k, b1, b2, h, -⟩
    · cases h
    · cases h; rw [O.locked] at hl; cases hl
    · cases h
    · cases h
    · cases h
  | @tryLock i m k hc hi hl =>
    exfalso
    obtain ⟨b, hb⟩ := O.procs _ _ hi
    rcases outside_cases hb with ⟨h, -⟩ | ⟨k, h, -⟩ | ⟨k, h, -⟩ | ⟨i, k, h, hk⟩ | ⟨p, k, b1, b2, h, -⟩
    · cases h
    · cases h
    · cases h; rw [O.locked] at hl; cases hl
    · cases h
    · cases h
  | @tryLockFails i m k hc hi hl =>
    refine ⟨O.to hi fun b hb => ?_, fun x hx => by cases hx⟩
    rcases outside_cases hb with ⟨h, -⟩ | ⟨k, h, -⟩ | ⟨k, h, hk⟩ | ⟨i, k, h, hk⟩ | ⟨p, k, b1, b2, h, -⟩
    · cases h
    · cases h
    · cases h; exact hk
    · cases h
    · cases h
  | tau hc hi => exact (no hi (by rintro ⟨⟩) (by rintro k ⟨⟩) (by rintro k ⟨⟩) (by rintro i k ⟨⟩) (by rintro q k ⟨⟩)).elim
  | make hc hi => exact (no hi (by rintro ⟨⟩) (by rintro k ⟨⟩) (by rintro k ⟨⟩) (by rintro i k ⟨⟩) (by rintro q k ⟨⟩)).elim
  | park hc hi _ _ => exact (sends (.fresh hi)).elim
  | sendBuf hc hs _ _ _ => exact (sends hs).elim
  | sendClosed hc hs _ _ => exact (sends hs).elim
  | meet hc hs hj _ _ _ => exact (sends hs).elim
  | meetPoll hc hs hj _ _ _ => exact (sends hs).elim
  | recvBuf hc hi _ _ => exact (no hi (by rintro ⟨⟩) (by rintro k ⟨⟩) (by rintro k ⟨⟩) (by rintro i k ⟨⟩) (by rintro q k ⟨⟩)).elim
  | pollBuf hc hi _ _ => exact (no hi (by rintro ⟨⟩) (by rintro k ⟨⟩) (by rintro k ⟨⟩) (by rintro i k ⟨⟩) (by rintro q k ⟨⟩)).elim
  | recvClosed hc hi _ _ _ => exact (no hi (by rintro ⟨⟩) (by rintro k ⟨⟩) (by rintro k ⟨⟩) (by rintro i k ⟨⟩) (by rintro q k ⟨⟩)).elim
  | pollClosed hc hi _ _ _ => exact (no hi (by rintro ⟨⟩) (by rintro k ⟨⟩) (by rintro k ⟨⟩) (by rintro i k ⟨⟩) (by rintro q k ⟨⟩)).elim
  | pollDefault hc hi _ _ _ _ => exact (no hi (by rintro ⟨⟩) (by rintro k ⟨⟩) (by rintro k ⟨⟩) (by rintro i k ⟨⟩) (by rintro q k ⟨⟩)).elim
  | close hc hi _ _ => exact (no hi (by rintro ⟨⟩) (by rintro k ⟨⟩) (by rintro k ⟨⟩) (by rintro i k ⟨⟩) (by rintro q k ⟨⟩)).elim
  | closeClosed hc hi _ _ => exact (no hi (by rintro ⟨⟩) (by rintro k ⟨⟩) (by rintro k ⟨⟩) (by rintro i k ⟨⟩) (by rintro q k ⟨⟩)).elim
  | unlock hc hi _ => exact (no hi (by rintro ⟨⟩) (by rintro k ⟨⟩) (by rintro k ⟨⟩) (by rintro i k ⟨⟩) (by rintro q k ⟨⟩)).elim
  | unlockFree hc hi _ => exact (no hi (by rintro ⟨⟩) (by rintro k ⟨⟩) (by rintro k ⟨⟩) (by rintro i k ⟨⟩) (by rintro q k ⟨⟩)).elim
  | load hc hi => exact (no hi (by rintro ⟨⟩) (by rintro k ⟨⟩) (by rintro k ⟨⟩) (by rintro i k ⟨⟩) (by rintro q k ⟨⟩)).elim
  | store hc hi => exact (no hi (by rintro ⟨⟩) (by rintro k ⟨⟩) (by rintro k ⟨⟩) (by rintro i k ⟨⟩) (by rintro q k ⟨⟩)).elim

theorem Out.run {w : Bool} {s s' : Config V (Event V)} {tr : List (Event V)} (O : Out w s) (r : Run s tr s') :
    Out w s' ∧ ∀ x, x ∈ tr → ∃ i, x = .failed i := by
  induction r with
  | nil => exact ⟨O, fun x hx => by cases hx⟩
  | @step t u tr e _ st ih =>
    obtain ⟨O', h⟩ := ih
    obtain ⟨O2, h2⟩ := O'.step st
    refine ⟨O2, fun x hx => ?_⟩
    rcases List.mem_append.1 hx with hx | hx
    · exact h x hx
    · cases e with
      | none => cases hx
      | some y =>
        rw [Option.toList_some, List.mem_singleton] at hx
        exact h2 x (by rw [hx])

/-- When nobody can go on. -/
theorem Out.stuck {w : Bool} {s : Config V (Event V)} (O : Out w s) (hend : ∀ e s', ¬ Step s e s') :
    (∀ p, p ∈ s.procs → p = .done ∨ ∃ k, p = .lock 0 k) ∧ (w = true → ∃ p, p ∈ s.procs ∧ ∃ k, p = .lock 0 k) := by
  have key : ∀ (i : Nat) (q : Proc V (Event V)) (b : Bool), s.procs[i]? = some q → Outside b q →
      (q = .done ∧ b = false) ∨ ∃ k, q = .lock 0 k := by
    intro i q b hi hb
    rcases outside_cases hb with h | ⟨k, h, -⟩ | ⟨k, h, -⟩ | ⟨i, k, h, hk⟩ | ⟨p, k, b1, b2, h, -⟩
    · exact .inl h
    · exact .inr ⟨k, h⟩
    · subst h; exact absurd (.tryLockFails O.alive hi (.inl O.locked)) (hend _ _)
    · subst h; exact absurd (.emit O.alive hi) (hend _ _)
    · subst h; exact absurd (.go O.alive hi) (hend _ _)
  refine ⟨fun p hp => ?_, fun hw => ?_⟩
  · obtain ⟨i, hi⟩ := List.mem_iff_getElem?.1 hp
    obtain ⟨b, hb⟩ := O.procs i p hi
    rcases key i p b hi hb with ⟨h, -⟩ | h
    · exact .inl h
    · exact .inr h
  · obtain ⟨i, q, hi, hq⟩ := O.waits hw
    rcases key i q true hi hq with ⟨_, h⟩ | h
    · cases h
    · exact ⟨q, List.mem_iff_getElem?.2 ⟨i, hi⟩, h⟩

/-- The leaver works on the value. -/
theorem run_body {s : Config V (Event V)} {i : Nat} {gs : List (V → V)} (hc : s.crashed = false)
    (hi : s.procs[i]? = some (body 0 gs .done)) : ∃ x, Run s [] { s.to i .done with vars := upd s.vars 0 x } := by
  induction gs generalizing s with
  | nil =>
    refine ⟨s.vars 0, ?_⟩
    have h1 : s.procs.set i .done = s.procs := by
      obtain ⟨h, e⟩ := List.getElem?_eq_some_iff.1 hi
      have e : s.procs[i] = .done := e
      rw [← e, List.set_getElem_self]
    have h2 : upd s.vars 0 (s.vars 0) = s.vars := by
      funext a; simp only [upd]; split
      · rename_i h; rw [h]
      · rfl
    have : ({ s.to i .done with vars := upd s.vars 0 (s.vars 0) } : Config V (Event V)) = s := by
      rw [h2]
      show ({ s with procs := s.procs.set i .done } : Config V (Event V)) = s
      rw [h1]
    rw [this]
    exact .nil s
  | cons g gs ih =>
    have hlt := lt_of hi
    have r1 := Run.one (Step.load hc hi)
    have h1 : (s.to i (.store 0 (g (s.vars 0)) (body 0 gs .done))).procs[i]? = some (.store 0 (g (s.vars 0)) (body 0 gs .done)) :=
      List.getElem?_set_self hlt
    have r2 := r1.step (Step.store hc h1)
    obtain ⟨x, r3⟩ := ih (s := { (s.to i (.store 0 (g (s.vars 0)) (body 0 gs .done))).to i (body 0 gs .done) with
      vars := upd s.vars 0 (g (s.vars 0)) }) hc (by
        show ((s.procs.set i _).set i _)[i]? = _
        rw [List.getElem?_set_self (by rw [List.length_set]; exact hlt)])
    refine ⟨x, ?_⟩
    have r4 := r2.trans r3
    have e : ({ ({ (s.to i (.store 0 (g (s.vars 0)) (body 0 gs .done))).to i (body 0 gs .done) with
      vars := upd s.vars 0 (g (s.vars 0)) } : Config V (Event V)).to i .done with
        vars := upd (upd s.vars 0 (g (s.vars 0))) 0 x } : Config V (Event V)) = { s.to i .done with vars := upd s.vars 0 x } := by
      simp only [Config.to, List.set_set, upd_upd]
    rw [← e]
    exact r4
end Abandon

/-- **C170** is violated: whatever the other goroutines do, there is an execution in which a goroutine gets the Mutex, by Lock
or TryLock, works on the value and returns, and from then on, in every continuation, the Mutex is locked, nobody else ever
gets it, and every attempt with TryLock fails; when nobody can go on, the goroutines that called Lock are still in it, and
there is one if any of the others has a Lock to call at all. -/
theorem C170_dropped_fails (v : V) (try_ : Bool) (gs : List (V → V)) (clients : List (List (Bool × List (V → V)))) :
    ∃ s, Run (Abandon.program v try_ gs clients) [.entered 0 gs] s ∧ s.procs[1]? = some .done ∧
      ∀ tr s', Run s tr s' → s'.locks 0 = true ∧ s'.crashed = false ∧ (∀ e, e ∈ tr → ∃ i, e = .failed i) ∧
        ((∀ e s'', ¬ Step s' e s'') → (∀ p, p ∈ s'.procs → p = .done ∨ ∃ k, p = .lock 0 k) ∧
          ((clients.any fun r => r.any fun a => !a.1) = true → ∃ p, p ∈ s'.procs ∧ ∃ k, p = .lock 0 k)) := by
  let rest : Proc V (Mutex.Event V) := goAll ((clients.zipIdx 1).map fun c => Mutex.client (Mutex.new 0 0) c.2 c.1) .done
  let c1 : Config V (Mutex.Event V) := ⟨[rest, .emit (.entered 0 gs) (Mutex.body 0 gs .done)], [], upd (fun _ => false) 0 true, fun _ => v, false⟩
  have r1 : Run (Abandon.program v try_ gs clients) [] c1 := by
    have r := Run.nil (Abandon.program v try_ gs clients)
    have r := r.step (.go (i := 0) rfl rfl)
    cases try_ with
    | false => exact r.step (.lock (i := 1) rfl rfl rfl)
    | true => exact r.step (.tryLock (i := 1) rfl rfl rfl)
  have r2 := r1.step (.emit (i := 1) rfl rfl)
  obtain ⟨x, r3⟩ := Abandon.run_body (s := c1.to 1 (Mutex.body 0 gs .done)) (i := 1) rfl rfl
  have r4 := r2.trans r3
  refine ⟨_, r4, rfl, fun tr s' r => ?_⟩
  have O : Abandon.Out (clients.any fun r => r.any fun a => !a.1)
      { (c1.to 1 (Mutex.body 0 gs .done)).to 1 .done with vars := upd (c1.to 1 (Mutex.body 0 gs .done)).vars 0 x } := by
    refine ⟨fun i q hq => ?_, fun hw => ⟨0, rest, rfl, ?_⟩, rfl, rfl⟩
    · cases i with
      | zero => cases hq; exact ⟨_, .main 1 clients⟩
      | succ i =>
        cases i with
        | zero => cases hq; exact ⟨_, .idle 0 []⟩
        | succ i => cases hq
    · have := Abandon.Outside.main 1 clients
      rw [hw] at this
      exact this
  obtain ⟨O', h⟩ := O.run r
  exact ⟨O'.locked, O'.alive, h, fun hend => O'.stuck hend⟩

/- Goroutines as in C81 unlock only what they have locked, and so does the one that does not unlock: C170_exclusion applies. -/
example (v : V) (try_ : Bool) (gs : List (V → V)) (clients : List (List (Bool × List (V → V)))) {tr : List (Mutex.Event V)}
    {s : Config V (Mutex.Event V)} (r : Run (Abandon.program v try_ gs clients) tr s) :
    ∀ (i j : Nat) (q q' : Proc V (Mutex.Event V)), s.procs[i]? = some q → s.procs[j]? = some q' →
      ¬ Pairs 0 false q → ¬ Pairs 0 false q' → i = j :=
  (C170_exclusion (m := 0) (p := .go _ _) ⟨Abandon.leaver_pairs 0 try_ 0 gs, Abandon.goAll_pairs fun p hp => by
    obtain ⟨c, -, rfl⟩ := List.mem_map.1 hp
    exact Abandon.client_pairs 0 c.2 c.1⟩ r).1
/- A goroutine in the critical section is one that may unlock without locking first. -/
example : ¬ Pairs 0 false (.store 3 5 (.unlock 0 .done) : Proc Nat Nat) ∧ Pairs 0 true (.store 3 5 (.unlock 0 .done) : Proc Nat Nat) := by
  simp [Pairs]
/- Two Mutexes, a channel and a goroutine started inside the critical section. -/
example : Pairs 0 false (.lock 0 (.lock 1 (.make 0 fun c => .go (.lock 0 (.send c 1 (.unlock 0 .done)))
    (.unlock 1 (.unlock 0 (.recv c fun _ => .done))))) : Proc Nat Nat) := by simp [Pairs]
/- Locked, and nobody has it: C170_lost applies. -/
example : ∀ (i : Nat) (q : Proc Nat Nat), [Proc.done, .lock 0 (.unlock 0 .done), .tryLock 0 fun ok => if ok then .unlock 0 .done else .done][i]? = some q →
    Pairs 0 false q := by
  intro i q h
  match i, h with
  | 0, h => cases h; trivial
  | 1, h => cases h; simp [Pairs]
  | 2, h => cases h; simp [Pairs]
end Gost
