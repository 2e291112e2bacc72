import Verif.Model.ConcEvents
import Verif.Props.TaskLocks
import Verif.Props.Mutex
import Verif.Props.TaskData
/-
Property C166: goroutines that share data through Mutexes, Spawn, Join, IsFinished and Await have no data races.
-/
namespace Gost
open Conc
namespace Race
variable {V E : Type}

/-! ### Happens before -/

theorem HB.lt {as : List Act} {p q : Nat} (h : HB as p q) : p < q := by
  induction h with
  | order h => exact h
  | mutex h => exact h
  | closed h => exact h
  | trans _ _ h1 h2 => exact Nat.lt_trans h1 h2

theorem get_append {as l : List Act} {p : Nat} {a : Act} (h : as[p]? = some a) : (as ++ l)[p]? = some a := by
  rw [List.getElem?_append_left (List.getElem?_eq_some_iff.1 h).1, h]

theorem HB.append {as : List Act} (l : List Act) {p q : Nat} (h : HB as p q) : HB (as ++ l) p q := by
  induction h with
  | order h hp hq ha hb => exact .order h (get_append hp) (get_append hq) ha hb
  | mutex h hp hq => exact .mutex h (get_append hp) (get_append hq)
  | closed h hp hq => exact .closed h (get_append hp) (get_append hq)
  | trans _ _ h1 h2 => exact .trans h1 h2

/-- The same action or one that happens before. -/
def Upto (as : List Act) (p q : Nat) : Prop := p = q ∨ HB as p q

theorem Upto.append {as : List Act} (l : List Act) {p q : Nat} (h : Upto as p q) : Upto (as ++ l) p q :=
  h.imp id (HB.append l)

theorem Upto.then {as : List Act} {p q r : Nat} (h : Upto as p q) (h2 : HB as q r) : HB as p r := by
  rcases h with rfl | h
  · exact h2
  · exact .trans h h2

/-! ### Permissions -/

/-- Where a permission is: a goroutine has it, a Mutex that is not locked has it, or it is of no use any more. -/
inductive Place where
  | gor (i : Nat)
  | mutex (m : Nat)
  | lost
  deriving DecidableEq

/-- Permissions: one for each variable and number, one to receive from a channel and one to close it.  One permission of a variable
allows to read it, all of them allow to write it. -/
inductive Item where
  | var (a t : Nat)
  | recv (c : Nat)
  | close (c : Nat)
  deriving DecidableEq

abbrev Perms := Item → Prop

/-- All actions the owner at this place has learnt of: the action at `p` is among them. -/
def Known (as : List Act) (p : Nat) : Place → Prop
  | .gor i => ∃ q a, as[q]? = some a ∧ i ∈ a.actors ∧ Upto as p q
  | .mutex m => ∃ q i, as[q]? = some (.unlock i m) ∧ Upto as p q
  | .lost => True

/-- Where a permission may go by an action. -/
inductive Flow (a : Act) : Place → Place → Prop
  | stay (P : Place) : Flow a P P
  | lost (P : Place) : Flow a P .lost
  | give {i j : Nat} (hi : i ∈ a.actors) (hj : j ∈ a.actors) : Flow a (.gor i) (.gor j)
  | lock {i m : Nat} (h : a = .lock i m) : Flow a (.mutex m) (.gor i)
  | unlock {i m : Nat} (h : a = .unlock i m) : Flow a (.gor i) (.mutex m)

theorem last_get (as : List Act) (a : Act) : (as ++ [a])[as.length]? = some a := by simp

theorem get_lt {as : List Act} {q : Nat} {a : Act} (h : as[q]? = some a) : q < as.length := (List.getElem?_eq_some_iff.1 h).1

theorem Known.append {as : List Act} {p : Nat} {P : Place} (a : Act) (h : Known as p P) : Known (as ++ [a]) p P := by
  cases P with
  | gor i =>
    obtain ⟨q, b, h1, h2, h3⟩ := h
    exact ⟨q, b, get_append h1, h2, h3.append _⟩
  | mutex m =>
    obtain ⟨q, i, h1, h2⟩ := h
    exact ⟨q, i, get_append h1, h2.append _⟩
  | lost => trivial

/-- What a goroutine has learnt of happens before what it does next. -/
theorem Known.next {as : List Act} {p i : Nat} {a : Act} (h : Known as p (.gor i)) (hi : i ∈ a.actors) : HB (as ++ [a]) p as.length := by
  obtain ⟨q, b, h1, h2, h3⟩ := h
  exact (h3.append [a]).then (.order (get_lt h1) (get_append h1) (last_get as a) h2 hi)

theorem Known.flow {as : List Act} {p : Nat} {P P' : Place} {a : Act} (h : Known as p P) (hf : Flow a P P') : Known (as ++ [a]) p P' := by
  cases hf with
  | stay => exact h.append a
  | lost => trivial
  | give hi hj => exact ⟨as.length, a, last_get as a, hj, .inr (h.next hi)⟩
  | lock ha =>
    subst ha
    obtain ⟨q, i, h1, h2⟩ := h
    exact ⟨as.length, _, last_get as _, List.mem_singleton.2 rfl,
      .inr ((h2.append _).then (.mutex (get_lt h1) (get_append h1) (last_get as _)))⟩
  | unlock ha =>
    subst ha
    exact ⟨as.length, _, last_get as _, .inr (h.next (List.mem_singleton.2 rfl))⟩

/-- All accesses so far are known to the owners of the permissions: writes to all of them, a read to one of them. -/
structure Tracked (as : List Act) (own : Item → Place) : Prop where
  store : ∀ (p i a : Nat), as[p]? = some (.store i a) → ∀ t, Known as p (own (.var a t))
  load : ∀ (p i a : Nat), as[p]? = some (.load i a) → ∃ t, Known as p (own (.var a t))
  ordered : ∀ p q, p < q → Conflict as p q → HB as p q

/-- An action is allowed with these permissions. -/
def Allowed (own : Item → Place) : Act → Prop
  | .load i a => ∃ t, own (.var a t) = .gor i
  | .store i a => ∀ t, own (.var a t) = .gor i
  | _ => True

theorem access_load {x : Act} {a : Nat} (h : x.access = some (a, false)) : ∃ i, x = .load i a := by
  cases x <;> simp only [Act.access] at h <;> cases h
  exact ⟨_, rfl⟩

theorem access_store {x : Act} {a : Nat} (h : x.access = some (a, true)) : ∃ i, x = .store i a := by
  cases x <;> simp only [Act.access] at h <;> cases h
  exact ⟨_, rfl⟩

theorem Tracked.nil (own : Item → Place) : Tracked [] own :=
  ⟨fun _ _ _ h => (by cases h), fun _ _ _ h => (by cases h), fun _ _ _ ⟨_, _, _, _, _, h, _⟩ => (by cases h)⟩

theorem get_last {as : List Act} {a b : Act} {p : Nat} (h : (as ++ [a])[p]? = some b) : as[p]? = some b ∨ (p = as.length ∧ b = a) := by
  rcases Nat.lt_or_ge p as.length with hp | hp
  · rw [List.getElem?_append_left hp] at h
    exact .inl h
  · rw [List.getElem?_append_right hp] at h
    have e : p - as.length = 0 := by simpa using (List.getElem?_eq_some_iff.1 h).1
    rw [e] at h
    exact .inr ⟨by omega, by simpa using h.symm⟩

theorem Tracked.step {as : List Act} {own own' : Item → Place} {a : Act} (h : Tracked as own) (ha : Allowed own a)
    (hf : ∀ x t, Flow a (own (.var x t)) (own' (.var x t))) (hsame : a.access.isSome = true → own' = own) : Tracked (as ++ [a]) own' := by
  refine ⟨?_, ?_, ?_⟩
  · intro p i x hp t
    rcases get_last hp with hp | ⟨rfl, rfl⟩
    · exact (h.store p i x hp t).flow (hf x t)
    · rw [hsame rfl, ha t]
      exact ⟨as.length, _, last_get as _, List.mem_singleton.2 rfl, .inl rfl⟩
  · intro p i x hp
    rcases get_last hp with hp | ⟨rfl, rfl⟩
    · obtain ⟨t, ht⟩ := h.load p i x hp
      exact ⟨t, ht.flow (hf x t)⟩
    · obtain ⟨t, ht⟩ := ha
      exact ⟨t, by rw [hsame rfl, ht]; exact ⟨as.length, _, last_get as _, List.mem_singleton.2 rfl, .inl rfl⟩⟩
  · rintro p q hpq ⟨x, y, b, v, w, hp, hq, hx, hy, hvw⟩
    rcases get_last hq with hq | ⟨rfl, rfl⟩
    · have hp : as[p]? = some x := by
        rcases get_last hp with hp | ⟨e, _⟩
        · exact hp
        · exact absurd (get_lt hq) (by omega)
      exact HB.append _ (h.ordered p q hpq ⟨x, y, b, v, w, hp, hq, hx, hy, hvw⟩)
    · have hp' : as[p]? = some x := by
        rcases get_last hp with hp | ⟨e, _⟩
        · exact hp
        · omega
      cases w with
      | true =>
        obtain ⟨i, rfl⟩ := access_store hy
        cases v with
        | true =>
          obtain ⟨j, rfl⟩ := access_store hx
          have := h.store p j b hp' 0
          rw [ha 0] at this
          exact this.next (List.mem_singleton.2 rfl)
        | false =>
          obtain ⟨j, rfl⟩ := access_load hx
          obtain ⟨t, ht⟩ := h.load p j b hp'
          rw [ha t] at ht
          exact ht.next (List.mem_singleton.2 rfl)
      | false =>
        obtain ⟨i, rfl⟩ := access_load hy
        have hv : v = true := by rcases hvw with h | h; exacts [h, by cases h]
        subst hv
        obtain ⟨j, rfl⟩ := access_store hx
        obtain ⟨t, ht⟩ := ha
        have := h.store p j b hp' t
        rw [ht] at this
        exact this.next (List.mem_singleton.2 rfl)

/-! ### The discipline -/

/-- How a channel is used: it is never closed; it may be closed at any time; it is closed after the first value, and one goroutine at a time may
receive from it, until it has got the value. -/
inductive Use where
  | never
  | many
  | once
  deriving DecidableEq

/-- The channels a goroutine knows, with the permissions that go with each value sent on them. -/
abbrev Chans (V : Type) := Nat → Option ((V → Perms) × Use)

/-- What a goroutine that keeps to the discipline may do with the permissions `X` and the channels `Γ`.  `G m` are the permissions kept by the
Mutex `m`: who locks it gets them and must have them to unlock it.  A goroutine that is started gets some of the permissions of the one that
starts it.  To read a variable one of its permissions is needed, to write it all of them. -/
def Disc (G : Nat → Perms) : Proc V E → Chans V → Perms → Prop
  | .done, _, _ => True
  | .emit _ k, Γ, X => Disc G k Γ X
  | .tau k, Γ, X => Disc G k Γ X
  | .go p k, Γ, X => ∃ X1 X2 : Perms, (∀ x, X1 x → X x) ∧ (∀ x, X2 x → X x) ∧ (∀ x, X1 x → ¬ X2 x) ∧ Disc G p Γ X1 ∧ Disc G k Γ X2
  | .make cap k, Γ, X => cap = 0 ∧ ∃ S, ∀ c, Γ c = none → Disc G (k c) (upd Γ c (some S)) fun x => X x ∨ x = .recv c
  | .send c v k, Γ, X => ∃ S u, Γ c = some (S, u) ∧ (∀ x, S v x → X x) ∧
      Disc G k Γ fun x => (X x ∧ ¬ S v x) ∨ (u = .once ∧ x = .close c)
  | .parked c v k, Γ, X => ∃ S u, Γ c = some (S, u) ∧ (∀ x, S v x → X x) ∧
      Disc G k Γ fun x => (X x ∧ ¬ S v x) ∨ (u = .once ∧ x = .close c)
  | .recv c k, Γ, X => ∃ S u, Γ c = some (S, u) ∧ (u = .once → X (.recv c)) ∧
      (∀ v, Disc G (k (some v)) Γ fun x => (X x ∨ S v x) ∧ x ≠ .recv c ∧ x ≠ .close c) ∧ (u = .many → Disc G (k none) Γ X)
  | .poll c k, Γ, X => ∃ S u, Γ c = some (S, u) ∧ (u = .once → X (.recv c)) ∧
      (∀ v, Disc G (k (some (some v))) Γ fun x => (X x ∨ S v x) ∧ x ≠ .recv c ∧ x ≠ .close c) ∧ (u = .many → Disc G (k (some none)) Γ X) ∧
      Disc G (k none) Γ X
  | .close c k, Γ, X => ∃ S u, Γ c = some (S, u) ∧ (u = .many ∨ (u = .once ∧ X (.close c))) ∧ Disc G k Γ X
  | .lock m k, Γ, X => Disc G k Γ fun x => X x ∨ G m x
  | .tryLock m k, Γ, X => Disc G (k true) Γ (fun x => X x ∨ G m x) ∧ Disc G (k false) Γ X
  | .unlock m k, Γ, X => (∀ x, G m x → X x) ∧ Disc G k Γ fun x => X x ∧ ¬ G m x
  | .load a k, Γ, X => (∃ t, X (.var a t)) ∧ ∀ v, Disc G (k v) Γ X
  | .store a _ k, Γ, X => (∀ t, X (.var a t)) ∧ Disc G k Γ X

/-- Mutexes keep permissions of variables, and no two of them the same. -/
structure Guards (G : Nat → Perms) : Prop where
  vars : ∀ m x, G m x → ∃ a t, x = .var a t
  apart : ∀ m m' x, G m x → G m' x → m = m'

theorem le_upd {Γ Γ' : Chans V} (hΓ : ∀ c S, Γ c = some S → Γ' c = some S) (c : Nat) (S : (V → Perms) × Use) :
    ∀ d T, upd Γ c (some S) d = some T → upd Γ' c (some S) d = some T := by
  intro d T hd
  simp only [upd] at hd ⊢
  split <;> rename_i e
  · rw [if_pos e] at hd; exact hd
  · rw [if_neg e] at hd; exact hΓ d T hd

/-- More permissions and more channels do no harm. -/
theorem Disc.mono {G : Nat → Perms} {p : Proc V E} {Γ Γ' : Chans V} {X X' : Perms} (h : Disc G p Γ X)
    (hΓ : ∀ c S, Γ c = some S → Γ' c = some S) (hX : ∀ x, X x → X' x) : Disc G p Γ' X' := by
  induction p generalizing Γ Γ' X X' with
  | done => trivial
  | emit _ k ih => exact ih h hΓ hX
  | tau k ih => exact ih h hΓ hX
  | go p k ih1 ih2 =>
    obtain ⟨X1, X2, h1, h2, h3, h4, h5⟩ := h
    exact ⟨X1, X2, fun x h => hX x (h1 x h), fun x h => hX x (h2 x h), h3, ih1 h4 hΓ fun _ h => h, ih2 h5 hΓ fun _ h => h⟩
  | make cap k ih =>
    obtain ⟨h0, S, h⟩ := h
    refine ⟨h0, S, fun c hc => ih c (h c ?_) (le_upd hΓ c S) fun x h => h.imp (hX x) id⟩
    cases e : Γ c with
    | none => rfl
    | some S' => rw [hΓ c S' e] at hc; cases hc
  | send c v k ih =>
    obtain ⟨S, u, h1, h2, h3⟩ := h
    exact ⟨S, u, hΓ c _ h1, fun x h => hX x (h2 x h), ih h3 hΓ fun x h => h.imp (fun h => ⟨hX x h.1, h.2⟩) id⟩
  | parked c v k ih =>
    obtain ⟨S, u, h1, h2, h3⟩ := h
    exact ⟨S, u, hΓ c _ h1, fun x h => hX x (h2 x h), ih h3 hΓ fun x h => h.imp (fun h => ⟨hX x h.1, h.2⟩) id⟩
  | recv c k ih =>
    obtain ⟨S, u, h1, h2, h3, h4⟩ := h
    exact ⟨S, u, hΓ c _ h1, fun e => hX _ (h2 e), fun v => ih _ (h3 v) hΓ fun x h => ⟨h.1.imp (hX x) id, h.2⟩, fun e => ih _ (h4 e) hΓ hX⟩
  | poll c k ih =>
    obtain ⟨S, u, h1, h2, h3, h4, h5⟩ := h
    exact ⟨S, u, hΓ c _ h1, fun e => hX _ (h2 e), fun v => ih _ (h3 v) hΓ fun x h => ⟨h.1.imp (hX x) id, h.2⟩, fun e => ih _ (h4 e) hΓ hX,
      ih _ h5 hΓ hX⟩
  | close c k ih =>
    obtain ⟨S, u, h1, h2, h3⟩ := h
    exact ⟨S, u, hΓ c _ h1, h2.imp id fun h => ⟨h.1, hX _ h.2⟩, ih h3 hΓ hX⟩
  | lock m k ih => exact ih h hΓ fun x h => h.imp (hX x) id
  | tryLock m k ih => exact ⟨ih _ h.1 hΓ fun x h => h.imp (hX x) id, ih _ h.2 hΓ hX⟩
  | unlock m k ih => exact ⟨fun x h' => hX x (h.1 x h'), ih h.2 hΓ fun x h => ⟨hX x h.1, h.2⟩⟩
  | load a k ih =>
    obtain ⟨⟨t, ht⟩, h2⟩ := h
    exact ⟨⟨t, hX _ ht⟩, fun v => ih v (h2 v) hΓ hX⟩
  | store a v k ih => exact ⟨fun t => hX _ (h.1 t), ih h.2 hΓ hX⟩

theorem Disc.more {G : Nat → Perms} {p : Proc V E} {Γ : Chans V} {X X' : Perms} (h : Disc G p Γ X) (hX : ∀ x, X x → X' x) : Disc G p Γ X' :=
  h.mono (fun _ _ h => h) hX

/-! ### Executions keep to it -/

structure Inv (G : Nat → Perms) (Γ : Chans V) (own : Item → Place) (s : Config V E) : Prop where
  disc : ∀ (i : Nat) p, s.procs[i]? = some p → Disc G p Γ fun x => own x = .gor i
  free : ∀ m, s.locks m = false → ∀ x, G m x → own x = .mutex m
  dom : ∀ c, s.chans.length ≤ c → Γ c = none ∧ own (.recv c) = .lost ∧ own (.close c) = .lost
  chans : ∀ (c : Nat) ch, s.chans[c]? = some ch → ch.cap = 0 ∧ ch.buf = []
  closed : ∀ (c : Nat) ch S u, s.chans[c]? = some ch → ch.closed = true → Γ c = some (S, u) → u = .many ∨ (u = .once ∧ own (.recv c) = .lost)
  once : ∀ c, own (.recv c) = .lost ∨ own (.close c) = .lost

section
variable {G : Nat → Perms} {Γ : Chans V} {own : Item → Place} {s s' : Config V E} {a : Act}

theorem get_to {s : Config V E} {i j : Nat} {p q : Proc V E} (h : (s.to i p).procs[j]? = some q) :
    (j = i ∧ q = p) ∨ (j ≠ i ∧ s.procs[j]? = some q) := by
  simp only [Config.to, List.getElem?_set] at h
  by_cases e : i = j
  · subst e
    rw [if_pos rfl] at h
    split at h
    · exact .inl ⟨rfl, by simpa using h.symm⟩
    · cases h
  · rw [if_neg e] at h
    exact .inr ⟨fun e' => e e'.symm, h⟩

/-- Goroutine `i` goes on with the permissions it has. -/
theorem Inv.goOn (hI : Inv G Γ own s) {i : Nat} {k : Proc V E} (hk : Disc G k Γ fun x => own x = .gor i) : Inv G Γ own (s.to i k) := by
  refine ⟨?_, hI.free, hI.dom, hI.chans, hI.closed, hI.once⟩
  intro j p hj
  rcases get_to hj with ⟨rfl, rfl⟩ | ⟨_, hj⟩
  · exact hk
  · exact hI.disc j p hj

theorem Inv.crash (hI : Inv G Γ own s) : Inv G Γ own { s with crashed := true } :=
  ⟨hI.disc, hI.free, hI.dom, hI.chans, hI.closed, hI.once⟩

theorem gor_inj {i j : Nat} {P : Place} (h1 : P = .gor i) (h2 : P = .gor j) : i = j := by
  rw [h1] at h2
  injection h2

/-- Sender `i` hands a value with its permissions over to receiver `j`. -/
theorem Inv.meet (hG : Guards G) (hI : Inv G Γ own s) {i j c : Nat} {v : V} {k k' : Proc V E} {S : V → Perms} {u : Use} (hij : i ≠ j)
    (hlen : c < s.chans.length)
    (h2 : ∀ x, S v x → own x = .gor i) (h3 : Disc G k Γ fun x => (own x = .gor i ∧ ¬ S v x) ∨ (u = .once ∧ x = .close c))
    (h0 : u = .once → own (.recv c) = .gor j)
    (h4 : Disc G k' Γ fun x => (own x = .gor j ∨ S v x) ∧ x ≠ .recv c ∧ x ≠ .close c) :
    ∃ own', Inv G Γ own' ((s.to i k).to j k') ∧ ∀ y t, Flow (.meet i j c) (own (.var y t)) (own' (.var y t)) := by
  classical
  cases u with
  | once =>
    refine ⟨fun x => if x = .recv c then .lost else if x = .close c then .gor i else if S v x then .gor j else own x,
      ⟨?_, ?_, ?_, hI.chans, ?_, ?_⟩, ?_⟩
    · intro n p hn
      rcases get_to hn with ⟨rfl, rfl⟩ | ⟨hnj, hn⟩
      · refine h4.more fun x h => ?_
        rw [if_neg h.2.1, if_neg h.2.2]
        by_cases e : S v x
        · rw [if_pos e]
        · rw [if_neg e]; exact h.1.resolve_right e
      · rcases get_to hn with ⟨rfl, rfl⟩ | ⟨hni, hn⟩
        · refine h3.more fun x h => ?_
          rcases h with h | ⟨_, rfl⟩
          · have e : x ≠ .recv c := fun e => hnj (gor_inj h.1 (e ▸ h0 rfl))
            rw [if_neg e]
            split
            · rfl
            · rw [if_neg h.2]; exact h.1
          · rw [if_neg (by simp), if_pos rfl]
        · refine (hI.disc n p hn).more fun x h => ?_
          have e : x ≠ .recv c := fun e => hnj (gor_inj h (e ▸ h0 rfl))
          have e1 : x ≠ .close c := fun e => by
            subst e
            rcases hI.once c with h' | h'
            · rw [h0 rfl] at h'; cases h'
            · rw [h] at h'; cases h'
          rw [if_neg e, if_neg e1, if_neg (fun e => hni (gor_inj h (h2 x e)))]; exact h
    · intro m hm x h
      obtain ⟨y, t, rfl⟩ := hG.vars m x h
      have := hI.free m hm _ h
      simp only [reduceCtorEq, if_false]
      rw [if_neg (fun e => by rw [h2 _ e] at this; cases this)]; exact this
    · intro d hd
      obtain ⟨h5, h6, h7⟩ := hI.dom d hd
      have hd : s.chans.length ≤ d := hd
      have e : d ≠ c := by omega
      refine ⟨h5, ?_, ?_⟩
      · simp only [Item.recv.injEq, e, if_false, reduceCtorEq]
        rw [if_neg (fun e => by rw [h2 _ e] at h6; cases h6)]; exact h6
      · simp only [Item.close.injEq, e, if_false, reduceCtorEq]
        rw [if_neg (fun e => by rw [h2 _ e] at h7; cases h7)]; exact h7
    · intro d ch T w hd hc hT
      refine (hI.closed d ch T w hd hc hT).imp id fun h => ⟨h.1, ?_⟩
      simp only [Item.recv.injEq, reduceCtorEq, if_false]
      split
      · rfl
      · rw [if_neg (fun e => by rw [h2 _ e] at h; cases h.2)]; exact h.2
    · intro d
      by_cases e : d = c
      · subst e; exact .inl (by simp)
      · simp only [Item.recv.injEq, Item.close.injEq, e, if_false, reduceCtorEq]
        refine (hI.once d).imp ?_ ?_ <;> intro h <;> rw [if_neg (fun e => by rw [h2 _ e] at h; cases h)] <;> exact h
    · intro y t
      simp only [reduceCtorEq, if_false]
      by_cases e : S v (.var y t)
      · simp only [if_pos e, h2 _ e]
        exact .give (by simp [Act.actors]) (by simp [Act.actors])
      · simp only [if_neg e]
        exact .stay _
  | never | many =>
    refine ⟨fun x => if S v x then .gor j else own x, ⟨?_, ?_, ?_, hI.chans, ?_, ?_⟩, ?_⟩
    · intro n p hn
      rcases get_to hn with ⟨rfl, rfl⟩ | ⟨hnj, hn⟩
      · refine h4.more fun x h => ?_
        by_cases e : S v x
        · rw [if_pos e]
        · rw [if_neg e]; exact h.1.resolve_right e
      · rcases get_to hn with ⟨rfl, rfl⟩ | ⟨hni, hn⟩
        · refine h3.more fun x h => ?_
          rcases h with h | ⟨h, _⟩
          · rw [if_neg h.2]; exact h.1
          · cases h
        · refine (hI.disc n p hn).more fun x h => ?_
          rw [if_neg (fun e => hni (gor_inj h (h2 x e)))]; exact h
    · intro m hm x h
      have := hI.free m hm x h
      show (if S v x then _ else _) = _
      rw [if_neg (fun e => by rw [h2 _ e] at this; cases this)]; exact this
    · intro d hd
      obtain ⟨h5, h6, h7⟩ := hI.dom d hd
      refine ⟨h5, ?_, ?_⟩
      · show (if S v _ then _ else _) = _
        rw [if_neg (fun e => by rw [h2 _ e] at h6; cases h6)]; exact h6
      · show (if S v _ then _ else _) = _
        rw [if_neg (fun e => by rw [h2 _ e] at h7; cases h7)]; exact h7
    · intro d ch T w hd hc hT
      refine (hI.closed d ch T w hd hc hT).imp id fun h => ⟨h.1, ?_⟩
      show (if S v _ then _ else _) = _
      rw [if_neg (fun e => by rw [h2 _ e] at h; cases h.2)]; exact h.2
    · intro d
      refine (hI.once d).imp ?_ ?_ <;> intro h <;> show (if S v _ then _ else _) = _ <;> rw [if_neg (fun e => by rw [h2 _ e] at h; cases h)] <;> exact h
    · intro y t
      by_cases e : S v (.var y t)
      · simp only [if_pos e, h2 _ e]
        exact .give (by simp [Act.actors]) (by simp [Act.actors])
      · simp only [if_neg e]
        exact .stay _

theorem sends (hI : Inv G Γ own s) {i c : Nat} {v : V} {k : Proc V E} (h : SendsAt s i c v k) :
    ∃ S u, Γ c = some (S, u) ∧ (∀ x, S v x → own x = .gor i) ∧
      Disc G k Γ fun x => (own x = .gor i ∧ ¬ S v x) ∨ (u = .once ∧ x = .close c) := by
  cases h with
  | fresh h => exact hI.disc i _ h
  | waiting h => exact hI.disc i _ h

/-- Goroutine `i` locks the Mutex `m`. -/
theorem Inv.lock (hG : Guards G) (hI : Inv G Γ own s) {i m : Nat} {k : Proc V E} (hl : s.locks m = false)
    (hk : Disc G k Γ fun x => own x = .gor i ∨ G m x) :
    ∃ own', Inv G Γ own' { s.to i k with locks := upd s.locks m true } ∧ ∀ y t, Flow (.lock i m) (own (.var y t)) (own' (.var y t)) := by
  classical
  have hr : ∀ c, ¬ G m (.recv c) := fun c h => by obtain ⟨_, _, h⟩ := hG.vars m _ h; cases h
  have hcl : ∀ c, ¬ G m (.close c) := fun c h => by obtain ⟨_, _, h⟩ := hG.vars m _ h; cases h
  refine ⟨fun x => if G m x then .gor i else own x, ⟨?_, ?_, ?_, hI.chans, ?_, ?_⟩, ?_⟩
  · intro n p hn
    rcases get_to (s := s) hn with ⟨rfl, rfl⟩ | ⟨hni, hn⟩
    · refine hk.more fun x h => ?_
      by_cases e : G m x
      · rw [if_pos e]
      · rw [if_neg e]; exact h.resolve_right e
    · refine (hI.disc n p hn).more fun x h => ?_
      rw [if_neg (fun e => by rw [hI.free m hl x e] at h; cases h)]; exact h
  · intro m' hm x h
    have hne : m' ≠ m := fun e => by subst e; simp [upd] at hm
    have hm : s.locks m' = false := by simpa only [upd, if_neg hne] using hm
    show (if G m x then _ else _) = _
    rw [if_neg (fun e => hne (hG.apart m' m x h e))]; exact hI.free m' hm x h
  · intro c hc
    simp only [if_neg (hr c), if_neg (hcl c)]
    exact hI.dom c hc
  · intro c ch S u h1 h2 h3
    simp only [if_neg (hr c)]
    exact hI.closed c ch S u h1 h2 h3
  · intro c
    simp only [if_neg (hr c), if_neg (hcl c)]
    exact hI.once c
  · intro y t
    by_cases e : G m (.var y t)
    · simp only [if_pos e, hI.free m hl _ e]
      exact .lock rfl
    · simp only [if_neg e]
      exact .stay _

/-- Goroutine `i` unlocks the Mutex `m`. -/
theorem Inv.unlock (hG : Guards G) (hI : Inv G Γ own s) {i m : Nat} {k : Proc V E} (h1 : ∀ x, G m x → own x = .gor i)
    (h2 : Disc G k Γ fun x => own x = .gor i ∧ ¬ G m x) :
    ∃ own', Inv G Γ own' { s.to i k with locks := upd s.locks m false } ∧ ∀ y t, Flow (.unlock i m) (own (.var y t)) (own' (.var y t)) := by
  classical
  have hr : ∀ c, ¬ G m (.recv c) := fun c h => by obtain ⟨_, _, h⟩ := hG.vars m _ h; cases h
  have hcl : ∀ c, ¬ G m (.close c) := fun c h => by obtain ⟨_, _, h⟩ := hG.vars m _ h; cases h
  refine ⟨fun x => if G m x then .mutex m else own x, ⟨?_, ?_, ?_, hI.chans, ?_, ?_⟩, ?_⟩
  · intro n p hn
    rcases get_to (s := s) hn with ⟨rfl, rfl⟩ | ⟨hni, hn⟩
    · refine h2.more fun x h => ?_
      rw [if_neg h.2]; exact h.1
    · refine (hI.disc n p hn).more fun x h => ?_
      rw [if_neg (fun e => hni (gor_inj h (h1 x e)))]; exact h
  · intro m' hm x h
    show (if G m x then _ else _) = _
    by_cases e : G m x
    · rw [if_pos e, hG.apart m' m x h e]
    · rw [if_neg e]
      have hne : m' ≠ m := fun e' => e (e' ▸ h)
      exact hI.free m' (by simpa only [upd, if_neg hne] using hm) x h
  · intro c hc
    simp only [if_neg (hr c), if_neg (hcl c)]
    exact hI.dom c hc
  · intro c ch S u h1 h2 h3
    simp only [if_neg (hr c)]
    exact hI.closed c ch S u h1 h2 h3
  · intro c
    simp only [if_neg (hr c), if_neg (hcl c)]
    exact hI.once c
  · intro y t
    by_cases e : G m (.var y t)
    · simp only [if_pos e, h1 _ e]
      exact .unlock rfl
    · simp only [if_neg e]
      exact .stay _

/-- Every step keeps to the discipline, and the permissions go where the actions let them. -/
theorem Inv.step (hG : Guards G) (hI : Inv G Γ own s) (h : Does s a s') :
    ∃ Γ' own', Inv G Γ' own' s' ∧ Allowed own a ∧ (∀ y t, Flow a (own (.var y t)) (own' (.var y t))) ∧ (a.access.isSome = true → own' = own) := by
  classical
  cases h with
  | @emit i _ k hc h =>
    have h1 := hI.disc _ _ h
    exact ⟨Γ, own, hI.goOn (k := k) h1, trivial, fun _ _ => .stay _, fun _ => rfl⟩
  | @tau i k hc h =>
    have h1 := hI.disc _ _ h
    exact ⟨Γ, own, hI.goOn (k := k) h1, trivial, fun _ _ => .stay _, fun _ => rfl⟩
  | @go i p k hc h =>
    obtain ⟨X1, X2, h1, h2, h3, h4, h5⟩ := hI.disc _ _ h
    have hlost : ∀ x, own x = .lost → ¬ X1 x := fun x hx e => by rw [h1 x e] at hx; cases hx
    refine ⟨Γ, fun x => if X1 x then .gor s.procs.length else own x, ⟨?_, ?_, ?_, hI.chans, ?_, ?_⟩, trivial, ?_, fun h => by cases h⟩
    · intro n q hn
      rcases Nat.lt_or_ge n s.procs.length with hlt | hge
      · rw [List.getElem?_append_left (by simpa using hlt)] at hn
        rcases get_to (s := s) hn with ⟨rfl, rfl⟩ | ⟨hni, hn⟩
        · refine h5.more fun x h => ?_
          rw [if_neg (fun e => h3 x e h)]; exact h2 x h
        · refine (hI.disc n q hn).more fun x h => ?_
          rw [if_neg (fun e => hni (gor_inj h (h1 x e)))]; exact h
      · rw [List.getElem?_append_right (by simpa using hge), List.length_set] at hn
        have e : n - s.procs.length = 0 := by simpa using (List.getElem?_eq_some_iff.1 hn).1
        rw [e] at hn
        obtain rfl : p = q := by simpa using hn
        obtain rfl : n = s.procs.length := by omega
        exact h4.more fun x h => by rw [if_pos h]
    · intro m hm x h
      have := hI.free m hm x h
      show (if X1 x then _ else _) = _
      rw [if_neg (fun e => by rw [h1 x e] at this; cases this)]; exact this
    · intro c hc
      obtain ⟨h6, h7, h8⟩ := hI.dom c hc
      simp only [if_neg (hlost _ h7), if_neg (hlost _ h8)]
      exact ⟨h6, h7, h8⟩
    · intro c ch S u h6 h7 h8
      refine (hI.closed c ch S u h6 h7 h8).imp id fun h => ⟨h.1, ?_⟩
      simp only [if_neg (hlost _ h.2)]
      exact h.2
    · intro c
      refine (hI.once c).imp ?_ ?_ <;> intro h <;> simp only [if_neg (hlost _ h)] <;> exact h
    · intro y t
      by_cases e : X1 (.var y t)
      · simp only [if_pos e, h1 _ e]
        exact .give (by simp [Act.actors]) (by simp [Act.actors])
      · simp only [if_neg e]
        exact .stay _
  | @make i cap k hc h =>
    obtain ⟨h0, S, h1⟩ := hI.disc _ _ h
    subst h0
    obtain ⟨hdom, hrl, hcl⟩ := hI.dom s.chans.length (Nat.le_refl _)
    refine ⟨upd Γ s.chans.length (some S), fun x => if x = .recv s.chans.length then .gor i else own x,
      ⟨?_, ?_, ?_, ?_, ?_, ?_⟩, trivial, fun y t => ?_, fun h => by cases h⟩
    · intro n q hn
      rcases get_to (s := s) hn with ⟨rfl, rfl⟩ | ⟨_, hn⟩
      · refine (h1 _ hdom).more fun x h => ?_
        split
        · rfl
        · rename_i e; exact h.resolve_right e
      · refine (hI.disc n q hn).mono (fun c S' hc => ?_) fun x h => ?_
        · simp only [upd]
          split <;> rename_i e
          · rw [e, hdom] at hc; cases hc
          · exact hc
        · rw [if_neg (fun e => by rw [e, hrl] at h; cases h)]; exact h
    · intro m hm x h
      have := hI.free m hm x h
      show (if x = _ then _ else _) = _
      rw [if_neg (fun e => by rw [e, hrl] at this; cases this)]; exact this
    · intro c hc
      simp only [List.length_append, List.length_singleton] at hc
      have e : ¬ c = s.chans.length := by omega
      simp only [upd, if_neg e, Item.recv.injEq, reduceCtorEq, if_false]
      exact hI.dom c (by omega)
    · intro c ch hch
      rcases Nat.lt_or_ge c s.chans.length with hlt | hge
      · rw [List.getElem?_append_left hlt] at hch
        exact hI.chans c ch hch
      · rw [List.getElem?_append_right hge] at hch
        have e : c - s.chans.length = 0 := by simpa using (List.getElem?_eq_some_iff.1 hch).1
        rw [e] at hch
        obtain rfl : (⟨0, [], false⟩ : Chan V) = ch := by simpa using hch
        exact ⟨rfl, rfl⟩
    · intro c ch T u hch hcl hT
      rcases Nat.lt_or_ge c s.chans.length with hlt | hge
      · rw [List.getElem?_append_left hlt] at hch
        have e : ¬ c = s.chans.length := by omega
        simp only [upd, if_neg e] at hT
        simp only [Item.recv.injEq, if_neg e]
        exact hI.closed c ch T u hch hcl hT
      · rw [List.getElem?_append_right hge] at hch
        have e : c - s.chans.length = 0 := by simpa using (List.getElem?_eq_some_iff.1 hch).1
        rw [e] at hch
        obtain rfl : (⟨0, [], false⟩ : Chan V) = ch := by simpa using hch
        cases hcl
    · intro c
      by_cases e : c = s.chans.length
      · subst e; exact .inr (by simp [hcl])
      · simp only [Item.recv.injEq, if_neg e, reduceCtorEq, if_false]
        exact hI.once c
    · simp only [reduceCtorEq, if_false]
      exact .stay _
  | @park i c v k ch hc h hch hcl =>
    have h1 := hI.disc _ _ h
    exact ⟨Γ, own, hI.goOn (k := .parked c v k) h1, trivial, fun _ _ => .stay _, fun _ => rfl⟩
  | sendBuf hc h hch hcl hb => rw [(hI.chans _ _ hch).1] at hb; exact absurd hb (Nat.not_lt_zero _)
  | sendClosed => exact ⟨Γ, own, hI.crash, trivial, fun _ _ => .stay _, fun _ => rfl⟩
  | @meet i j c v k r ch hc h hj hch hcl hb =>
    obtain ⟨S, u, h1, h2, h3⟩ := sends hI h
    obtain ⟨S', u', h4, h5, h6, _⟩ := hI.disc _ _ hj
    obtain ⟨rfl, rfl⟩ : S = S' ∧ u = u' := by rw [h1] at h4; simpa using h4
    have hij : i ≠ j := by
      rintro rfl
      cases h with
      | fresh h => rw [hj] at h; cases h
      | waiting h => rw [hj] at h; cases h
    obtain ⟨own', h7, h8⟩ := hI.meet hG (c := c) hij (List.getElem?_eq_some_iff.1 hch).1 h2 h3 h5
      (h6 v)
    exact ⟨Γ, own', h7, trivial, h8, fun h => by cases h⟩
  | @meetPoll i j c v k r ch hc h hj hch hcl hb =>
    obtain ⟨S, u, h1, h2, h3⟩ := sends hI h
    obtain ⟨S', u', h4, h5, h6, _⟩ := hI.disc _ _ hj
    obtain ⟨rfl, rfl⟩ : S = S' ∧ u = u' := by rw [h1] at h4; simpa using h4
    have hij : i ≠ j := by
      rintro rfl
      cases h with
      | fresh h => rw [hj] at h; cases h
      | waiting h => rw [hj] at h; cases h
    obtain ⟨own', h7, h8⟩ := hI.meet hG (c := c) hij (List.getElem?_eq_some_iff.1 hch).1 h2 h3 h5
      (h6 v)
    exact ⟨Γ, own', h7, trivial, h8, fun h => by cases h⟩
  | recvBuf hc hj hch hb => rw [(hI.chans _ _ hch).2] at hb; cases hb
  | pollBuf hc hj hch hb => rw [(hI.chans _ _ hch).2] at hb; cases hb
  | recvClosed hc hj hch hcl hb =>
    obtain ⟨S, u, h1, h2, _, h3⟩ := hI.disc _ _ hj
    have hm : u = .many := by
      rcases hI.closed _ _ _ _ hch hcl h1 with h | ⟨h, h'⟩
      · exact h
      · rw [h2 h] at h'; cases h'
    exact ⟨Γ, own, hI.goOn (h3 hm), trivial, fun _ _ => .stay _, fun _ => rfl⟩
  | pollClosed hc hj hch hcl hb =>
    obtain ⟨S, u, h1, h2, _, h3, _⟩ := hI.disc _ _ hj
    have hm : u = .many := by
      rcases hI.closed _ _ _ _ hch hcl h1 with h | ⟨h, h'⟩
      · exact h
      · rw [h2 h] at h'; cases h'
    exact ⟨Γ, own, hI.goOn (h3 hm), trivial, fun _ _ => .stay _, fun _ => rfl⟩
  | pollDefault hc hj hch hcl hb hn =>
    obtain ⟨S, u, _, _, _, _, h3⟩ := hI.disc _ _ hj
    exact ⟨Γ, own, hI.goOn h3, trivial, fun _ _ => .stay _, fun _ => rfl⟩
  | @close i c k ch hc h hch hcl =>
    obtain ⟨S, u, h1, h2, h3⟩ := hI.disc _ _ h
    have h4 := hI.goOn h3
    refine ⟨Γ, own, ⟨h4.disc, h4.free, by simpa using hI.dom, ?_, ?_, h4.once⟩, trivial, fun _ _ => .stay _, fun _ => rfl⟩
    · intro d ch' hd
      simp only [List.getElem?_set] at hd
      split at hd
      · split at hd
        · have := hI.chans _ _ hch
          simp only [Option.some.injEq] at hd
          subst hd
          exact this
        · cases hd
      · exact hI.chans d ch' hd
    · intro d ch' T w hd hcl' hT
      simp only [List.getElem?_set] at hd
      split at hd
      · rename_i e
        subst e
        rw [h1] at hT
        simp only [Option.some.injEq, Prod.mk.injEq] at hT
        obtain ⟨rfl, rfl⟩ := hT
        refine h2.imp id fun h => ⟨h.1, ?_⟩
        rcases hI.once c with h' | h'
        · exact h'
        · rw [h.2] at h'; cases h'
      · exact hI.closed d ch' T w hd hcl' hT
  | closeClosed => exact ⟨Γ, own, hI.crash, trivial, fun _ _ => .stay _, fun _ => rfl⟩
  | lock hc h hl =>
    obtain ⟨own', h6, h7⟩ := hI.lock hG hl (hI.disc _ _ h)
    exact ⟨Γ, own', h6, trivial, h7, fun h => by cases h⟩
  | tryLock hc h hl =>
    obtain ⟨own', h6, h7⟩ := hI.lock hG hl (hI.disc _ _ h).1
    exact ⟨Γ, own', h6, trivial, h7, fun h => by cases h⟩
  | tryLockFails hc h hl => exact ⟨Γ, own, hI.goOn (hI.disc _ _ h).2, trivial, fun _ _ => .stay _, fun _ => rfl⟩
  | @unlock i m k hc h hl =>
    obtain ⟨h1, h2⟩ := hI.disc _ _ h
    obtain ⟨own', h6, h7⟩ := hI.unlock hG h1 h2
    exact ⟨Γ, own', h6, trivial, h7, fun h => by cases h⟩
  | unlockFree => exact ⟨Γ, own, hI.crash, trivial, fun _ _ => .stay _, fun _ => rfl⟩
  | @load i x k hc h =>
    obtain ⟨h1, h2⟩ := hI.disc _ _ h
    exact ⟨Γ, own, hI.goOn (h2 _), h1, fun _ _ => .stay _, fun _ => rfl⟩
  | @store i x v k hc h =>
    obtain ⟨h1, h2⟩ := hI.disc _ _ h
    have h4 := hI.goOn h2
    exact ⟨Γ, own, ⟨h4.disc, h4.free, h4.dom, h4.chans, h4.closed, h4.once⟩, h1, fun _ _ => .stay _, fun _ => rfl⟩

theorem run_tracked (hG : Guards G) (hI : Inv G Γ own s) {as : List Act} (h : Exec s as s') :
    ∃ Γ' own', Inv G Γ' own' s' ∧ Tracked as own' := by
  induction h with
  | nil => exact ⟨Γ, own, hI, .nil own⟩
  | step _ h ih =>
    obtain ⟨Γ1, own1, h1, h2⟩ := ih
    obtain ⟨Γ2, own2, h3, h4, h5, h6⟩ := h1.step hG h
    exact ⟨Γ2, own2, h3, h2.step h4 h5 h6⟩
end

/-- The permissions main starts with: those of variables that no Mutex keeps. -/
def begins (G : Nat → Perms) : Perms := fun x => (∃ a t, x = .var a t) ∧ ∀ m, ¬ G m x

theorem initial {G : Nat → Perms} (hG : Guards G) (vars : Nat → V) {p : Proc V E} (hp : Disc G p (fun _ => none) (begins G)) :
    ∃ own, Inv G (fun _ => none) own (start vars p) := by
  classical
  refine ⟨fun x => if h : ∃ m, G m x then .mutex h.choose else if ∃ a t, x = .var a t then .gor 0 else .lost,
    ⟨?_, ?_, ?_, fun _ _ h => by simp [start] at h, fun _ _ _ _ h => by simp [start] at h, ?_⟩⟩
  · intro i q hi
    match i with
    | 0 =>
      obtain rfl : p = q := by simpa [start] using hi
      refine hp.more fun x h => ?_
      rw [dif_neg (fun ⟨m, hm⟩ => h.2 m hm), if_pos h.1]
    | i + 1 => simp [start] at hi
  · intro m _ x h
    have e : ∃ m, G m x := ⟨m, h⟩
    simp only [dif_pos e]
    rw [hG.apart _ _ x e.choose_spec h]
  · intro c _
    have e1 : ¬ ∃ m, G m (.recv c) := fun ⟨m, h⟩ => by obtain ⟨_, _, h⟩ := hG.vars m _ h; cases h
    have e2 : ¬ ∃ m, G m (.close c) := fun ⟨m, h⟩ => by obtain ⟨_, _, h⟩ := hG.vars m _ h; cases h
    refine ⟨rfl, ?_, ?_⟩
    · simp only [dif_neg e1]; simp
    · simp only [dif_neg e2]; simp
  · intro c
    have e1 : ¬ ∃ m, G m (.recv c) := fun ⟨m, h⟩ => by obtain ⟨_, _, h⟩ := hG.vars m _ h; cases h
    left
    simp only [dif_neg e1]; simp

end Race
open Race in
/-- **C166.** A program that keeps to the discipline has no data races, in any of its executions. -/
theorem C166_discipline {G : Nat → Perms} (hG : Guards G) {vars : Nat → V} {p : Proc V E} (hp : Disc G p (fun _ => none) (begins G)) {as : List Act}
    {s : Config V E} (h : Exec (start vars p) as s) : ¬ Race as := by
  rintro ⟨x, y, hxy, hc, hn, _⟩
  obtain ⟨own, hI⟩ := initial hG vars hp
  obtain ⟨_, _, _, ht⟩ := run_tracked hG hI h
  exact hn (ht.ordered x y hxy hc)

open Race in
/-- Every closed channel has been closed by an action of the execution. -/
theorem Race.closer {vars : Nat → V} {p : Proc V E} {as : List Act} {s : Config V E} (h : Exec (start vars p) as s) {c : Nat} {ch : Chan V}
    (hc : s.chans[c]? = some ch) (hcl : ch.closed = true) : ∃ (x i : Nat), as[x]? = some (.close i c) := by
  induction h generalizing c ch with
  | nil => simp [start] at hc
  | @step t u as a r h ih =>
    have keep : ∀ {ch' : Chan V}, t.chans[c]? = some ch' → ch'.closed = true → ∃ (x i : Nat), (as ++ [a])[x]? = some (.close i c) := fun h1 h2 => by
      obtain ⟨x, i, h3⟩ := ih h1 h2
      exact ⟨x, i, get_append h3⟩
    cases h with
    | make =>
      rcases Nat.lt_or_ge c t.chans.length with hlt | hge
      · rw [List.getElem?_append_left hlt] at hc; exact keep hc hcl
      · rw [List.getElem?_append_right hge] at hc
        have e : c - t.chans.length = 0 := by simpa using (List.getElem?_eq_some_iff.1 hc).1
        rw [e] at hc
        obtain rfl := by simpa using hc
        cases hcl
    | @close i d k ch' hc' h hch hcl' =>
      by_cases e : d = c
      · subst e; exact ⟨as.length, i, last_get _ _⟩
      · simp only [List.getElem?_set, if_neg e] at hc; exact keep hc hcl
    | @sendBuf i d v k ch' hc' h hch hcl' hb =>
      simp only [List.getElem?_set] at hc
      split at hc
      · rename_i e
        subst e
        split at hc
        · simp only [Option.some.injEq] at hc; subst hc; exact keep hch hcl
        · cases hc
      · exact keep hc hcl
    | @recvBuf j d r v b ch' hc' h hch hb =>
      simp only [List.getElem?_set] at hc
      split at hc
      · rename_i e
        subst e
        split at hc
        · simp only [Option.some.injEq] at hc; subst hc; exact keep hch hcl
        · cases hc
      · exact keep hc hcl
    | @pollBuf j d r v b ch' hc' h hch hb =>
      simp only [List.getElem?_set] at hc
      split at hc
      · rename_i e
        subst e
        split at hc
        · simp only [Option.some.injEq] at hc; subst hc; exact keep hch hcl
        · cases hc
      · exact keep hc hcl
    | _ => exact keep hc hcl

open Race in
/-- **C166.** Who finds a channel closed (as a second Await of the same future does) comes after the close: in every execution of every
program there is an earlier action that closes the channel, and with it all its goroutine did before happens before all the other does after. -/
theorem C166_closed {vars : Nat → V} {p : Proc V E} {as : List Act} {s : Config V E} (h : Exec (start vars p) as s) {j c q : Nat}
    (hq : as[q]? = some (.closed j c)) :
    ∃ x i, as[x]? = some (.close i c) ∧ HB as x q ∧
      (∀ y a, y < x → as[y]? = some a → i ∈ a.actors → ∀ z b, q < z → as[z]? = some b → j ∈ b.actors → HB as y z) := by
  have hx : ∃ x i, as[x]? = some (.close i c) ∧ HB as x q := by
    induction h with
    | nil => simp at hq
    | @step t u as a r h ih =>
      rcases Nat.lt_or_ge q as.length with hlt | hge
      · rw [List.getElem?_append_left hlt] at hq
        obtain ⟨x, i, h1, h2⟩ := ih hq
        exact ⟨x, i, get_append h1, HB.append _ h2⟩
      · rw [List.getElem?_append_right hge] at hq
        have e : q - as.length = 0 := by simpa using (List.getElem?_eq_some_iff.1 hq).1
        rw [e] at hq
        obtain rfl : a = .closed j c := by simpa using hq
        obtain rfl : q = as.length := by omega
        have : ∃ ch : Chan V, t.chans[c]? = some ch ∧ ch.closed = true := by
          cases h with
          | recvClosed _ _ h1 h2 => exact ⟨_, h1, h2⟩
          | pollClosed _ _ h1 h2 => exact ⟨_, h1, h2⟩
        obtain ⟨ch, h1, h2⟩ := this
        obtain ⟨x, i, h3⟩ := closer r h1 h2
        exact ⟨x, i, get_append h3, .closed (get_lt h3) (get_append h3) (last_get _ _)⟩
  obtain ⟨x, i, h1, h2⟩ := hx
  exact ⟨x, i, h1, h2, fun y a hy ha hi z b hz hb hj =>
    .trans (.order hy ha h1 hi (by simp [Act.actors])) (.trans h2 (.order hz hq hb (by simp [Act.actors]) hj))⟩

namespace Race

/-! ### What the functions of the package need -/

section
variable {G : Nat → Perms} {Γ : Chans V} {X : Perms}

/-- thread.Spawn: the new goroutine gets the permissions `X1` and passes `S` on when it ends. -/
theorem disc_spawn {unit : V} {f : Proc V E → Proc V E} {k : Thread.JoinHandle → Proc V E} (X1 S : Perms) (h1 : ∀ x, X1 x → X x)
    (hf : ∀ c, Γ c = none → Disc G (f (.send c unit .done)) (upd Γ c (some (fun _ => S, .never))) X1)
    (hk : ∀ c, Γ c = none → Disc G (k ⟨c⟩) (upd Γ c (some (fun _ => S, .never))) fun x => X x ∧ ¬ X1 x) :
    Disc G (Thread.spawn unit f k) Γ X :=
  ⟨rfl, (fun _ => S, .never), fun c hc => ⟨X1, fun x => X x ∧ ¬ X1 x, fun x h => .inl (h1 x h), fun _ h => .inl h.1, fun _ h h' => h'.2 h,
    hf c hc, hk c hc⟩⟩

/-- Join: who has waited for the goroutine gets what it has passed on. -/
theorem disc_join {h : Thread.JoinHandle} {k : Proc V E} {S : Perms} (hs : Γ h.channel = some (fun _ => S, .never))
    (hk : Disc G k Γ fun x => (X x ∨ S x) ∧ ∃ a t, x = .var a t) : Disc G (Thread.join h k) Γ X := by
  refine ⟨_, _, hs, by simp, fun _ => hk.more fun x hx => ⟨hx.1, ?_⟩, by simp⟩
  obtain ⟨_, a, t, rfl⟩ := hx
  simp

/-- IsFinished: the same if the answer is true, nothing otherwise. -/
theorem disc_isFinished {h : Thread.JoinHandle} {k : Bool → Proc V E} {S : Perms} (hs : Γ h.channel = some (fun _ => S, .never))
    (hk : Disc G (k true) Γ fun x => (X x ∨ S x) ∧ ∃ a t, x = .var a t) (hn : Disc G (k false) Γ X) : Disc G (Thread.isFinished h k) Γ X := by
  refine ⟨_, _, hs, by simp, fun _ => hk.more fun x hx => ⟨hx.1, ?_⟩, by simp, hn⟩
  obtain ⟨_, a, t, rfl⟩ := hx
  simp

/-- gokio.Spawn: the task gets the permissions `X1` and passes `S v` on with its result `v`. -/
theorem disc_gspawn {f : (V → Proc V E) → Proc V E} {k : Gokio.Future → Proc V E} (X1 : Perms) (S : V → Perms) (h1 : ∀ x, X1 x → X x)
    (h2 : ∀ x, X1 x → ∃ a t, x = .var a t)
    (hf : ∀ c, Γ c = none → Disc G (f fun v => .send c v (.close c .done)) (upd Γ c (some (S, .once))) X1)
    (hk : ∀ c, Γ c = none → Disc G (k ⟨c⟩) (upd Γ c (some (S, .once))) fun x => (X x ∧ ¬ X1 x) ∨ x = .recv c) :
    Disc G (Gokio.spawn f k) Γ X := by
  refine ⟨rfl, (S, .once), fun c hc => ⟨X1, fun x => (X x ∧ ¬ X1 x) ∨ x = .recv c, fun x h => .inl (h1 x h), fun _ h => h.imp And.left id, ?_,
    hf c hc, hk c hc⟩⟩
  intro x h h'
  rcases h' with h' | rfl
  · exact h'.2 h
  · obtain ⟨_, _, h⟩ := h2 _ h
    cases h

/-- What a task does with its result. -/
theorem disc_return {c : Nat} {v : V} {S : V → Perms} (hs : Γ c = some (S, .once)) (h : ∀ x, S v x → X x) :
    Disc G (.send c v (.close c .done) : Proc V E) Γ X :=
  ⟨S, .once, hs, h, S, .once, hs, .inr ⟨rfl, .inr ⟨rfl, rfl⟩⟩, trivial⟩

/-- Await of a future that nobody else awaits. -/
theorem disc_await {zero : V} {h : Gokio.Future} {k : V → Proc V E} {S : V → Perms} (hs : Γ h.ch = some (S, .once)) (hr : X (.recv h.ch))
    (hk : ∀ v, Disc G (k v) Γ fun x => (X x ∨ S v x) ∧ x ≠ .recv h.ch ∧ x ≠ .close h.ch) : Disc G (Gokio.await zero h k) Γ X :=
  ⟨S, .once, hs, fun _ => hr, hk, by simp⟩

/-- Lock, Unlock and TryLock of a Mutex. -/
theorem disc_lock {m : Mutex} {k : Nat → Proc V E} (hk : Disc G (k m.value) Γ fun x => X x ∨ G m.lock x) : Disc G (m.lock_ k) Γ X := hk
theorem disc_unlock {m : Mutex} {k : Proc V E} (h : ∀ x, G m.lock x → X x) (hk : Disc G k Γ fun x => X x ∧ ¬ G m.lock x) :
    Disc G (m.unlock k) Γ X := ⟨h, hk⟩
theorem disc_tryLock {m : Mutex} {k : Option Nat → Proc V E} (hk : Disc G (k (some m.value)) Γ fun x => X x ∨ G m.lock x)
    (hn : Disc G (k none) Γ X) : Disc G (m.tryLock k) Γ X := ⟨hk, hn⟩
end

/-! ### Goroutines with parts of their own -/

/-- Reads and writes of shared variables; what is read and written next may depend on what has been read. -/
inductive Body (V : Type) where
  | skip
  | get (a : Nat) (k : V → Body V)
  | put (a : Nat) (v : V) (k : Body V)

def Body.proc : Body V → Proc V E → Proc V E
  | .skip, p => p
  | .get a k, p => .load a fun v => (k v).proc p
  | .put a v k, p => .store a v (k.proc p)

/-- Specification: the body reads variables of `R` and `W` only and writes those of `W` only. -/
def Body.Keeps (R W : Nat → Prop) : Body V → Prop
  | .skip => True
  | .get a k => (R a ∨ W a) ∧ ∀ v, (k v).Keeps R W
  | .put a _ k => W a ∧ k.Keeps R W

theorem Body.disc {G : Nat → Perms} {R W : Nat → Prop} {b : Body V} (hb : b.Keeps R W) {p : Proc V E} {Γ : Chans V} {X : Perms}
    (hR : ∀ a, R a → ∃ t, X (.var a t)) (hW : ∀ a, W a → ∀ t, X (.var a t)) (hp : Disc G p Γ X) : Disc G (b.proc p) Γ X := by
  induction b with
  | skip => exact hp
  | get a k ih =>
    refine ⟨?_, fun v => ih v (hb.2 v)⟩
    rcases hb.1 with h | h
    · exact hR a h
    · exact ⟨0, hW a h 0⟩
  | put a v k ih => exact ⟨hW a hb.1, ih hb.2⟩

theorem Body.keeps_all (b : Body V) : b.Keeps (fun _ => True) fun _ => True := by
  induction b with
  | skip => trivial
  | get a k ih => exact ⟨.inl trivial, ih⟩
  | put a v k ih => exact ⟨trivial, ih⟩

/-- `for _, b := range bodies { hs = append(hs, gost.Spawn(b)) }`, then `k`. -/
def spawnAll (unit : V) : List (Body V) → List Thread.JoinHandle → (List Thread.JoinHandle → Proc V E) → Proc V E
  | [], hs, k => k hs
  | b :: bs, hs, k => Thread.spawn unit b.proc fun h => spawnAll unit bs (hs ++ [h]) k

/-- Wait for a goroutine: ask IsFinished up to `n` times, then Join. -/
def wait : Nat → Thread.JoinHandle → Proc V E → Proc V E
  | 0, h, k => Thread.join h k
  | n + 1, h, k => Thread.isFinished h fun b => if b then k else wait n h k

/-- Wait for all of them; `n j` is the number of questions to the `j`-th. -/
def waitAll (n : Nat → Nat) : List Thread.JoinHandle → Nat → Proc V E → Proc V E
  | [], _, k => k
  | h :: hs, j, k => wait (n j) h (waitAll n hs (j + 1) k)

/-- main does `pre`, starts goroutines with the bodies, does `mid` while they run, waits for all of them and does `post`. -/
def parts (unit : V) (pre : Body V) (bodies : List (Body V)) (mid : Body V) (n : Nat → Nat) (post : Body V) : Proc V E :=
  pre.proc (spawnAll unit bodies [] fun hs => mid.proc (waitAll n hs 0 (post.proc .done)))

/-- The same with gokio: tasks that are awaited. -/
def gspawnAll (v : V) : List (Body V) → List Gokio.Future → (List Gokio.Future → Proc V E) → Proc V E
  | [], hs, k => k hs
  | b :: bs, hs, k => Gokio.spawn (fun ret => b.proc (ret v)) fun h => gspawnAll v bs (hs ++ [h]) k

def awaitAll (zero : V) : List Gokio.Future → Proc V E → Proc V E
  | [], k => k
  | h :: hs, k => Gokio.await zero h fun _ => awaitAll zero hs k

def gparts (zero v : V) (pre : Body V) (bodies : List (Body V)) (mid post : Body V) : Proc V E :=
  pre.proc (gspawnAll v bodies [] fun hs => mid.proc (awaitAll zero hs (post.proc .done)))

/-- Specification: goroutine `j` writes in its own part `W j` only, main writes in `M` only while they run, and they read there and in `R`
only; no two of these have a variable in common. -/
structure Apart (R M : Nat → Prop) (W : Nat → Nat → Prop) : Prop where
  parts : ∀ i j a, W i a → W j a → i = j
  shared : ∀ i a, R a → ¬ W i a
  main : ∀ i a, M a → ¬ W i a
  mainShared : ∀ a, M a → ¬ R a

section
variable {R M : Nat → Prop} {W : Nat → Nat → Prop}

/-- The permissions of the `j`-th goroutine: all those of its own part, the `j`-th of what everybody reads. -/
def share (R : Nat → Prop) (W : Nat → Nat → Prop) (j : Nat) : Perms := fun x => ∃ a t, x = .var a t ∧ (W j a ∨ (R a ∧ t = j))

/-- Those of main while the goroutines from `j` up to `n` run. -/
def keptBy (R : Nat → Prop) (W : Nat → Nat → Prop) (j n : Nat) : Perms := fun x => (∃ a t, x = .var a t) ∧ ∀ i, j ≤ i → i < n → ¬ share R W i x

theorem share_var {j a t : Nat} : share R W j (.var a t) ↔ W j a ∨ (R a ∧ t = j) := by
  constructor
  · rintro ⟨a', t', h, h'⟩
    cases h
    exact h'
  · exact fun h => ⟨a, t, rfl, h⟩

theorem share_once (h : Apart R M W) {i j : Nat} {x : Item} (h1 : share R W i x) (h2 : share R W j x) : i = j := by
  obtain ⟨a, t, rfl, h1⟩ := h1
  rw [share_var] at h2
  rcases h1 with h1 | h1 <;> rcases h2 with h2 | h2
  · exact h.parts i j a h1 h2
  · exact absurd h1 (h.shared i a h2.1)
  · exact absurd h2 (h.shared j a h1.1)
  · exact h1.2.symm.trans h2.2

theorem body_share {G : Nat → Perms} {b : Body V} {j : Nat} (hb : b.Keeps R (W j)) {p : Proc V E} {Γ : Chans V} (hp : Disc G p Γ (share R W j)) :
    Disc G (b.proc p) Γ (share R W j) :=
  Body.disc hb (fun _ h => ⟨j, share_var.2 (.inr ⟨h, rfl⟩)⟩) (fun _ h _ => share_var.2 (.inl h)) hp

theorem body_main {G : Nat → Perms} (h : Apart R M W) {b : Body V} (hb : b.Keeps R M) {n : Nat} {p : Proc V E} {Γ : Chans V} {X : Perms}
    (hX : ∀ x, keptBy R W 0 n x → X x) (hp : Disc G p Γ X) : Disc G (b.proc p) Γ X := by
  refine Body.disc hb (fun a ha => ⟨n, hX _ ⟨⟨a, n, rfl⟩, fun i _ hi hs => ?_⟩⟩) (fun a ha t => hX _ ⟨⟨a, t, rfl⟩, fun i _ hi hs => ?_⟩) hp
  · rcases share_var.1 hs with hs | hs
    · exact h.shared i a ha hs
    · omega
  · rcases share_var.1 hs with hs | hs
    · exact h.main i a ha hs
    · exact h.mainShared a ha hs.1

theorem body_all {G : Nat → Perms} (b : Body V) {p : Proc V E} {Γ : Chans V} {X : Perms} (hX : ∀ a t, X (.var a t)) (hp : Disc G p Γ X) :
    Disc G (b.proc p) Γ X :=
  Body.disc b.keeps_all (fun _ _ => ⟨0, hX _ 0⟩) (fun _ _ _ => hX _ _) hp

theorem upd_same {β : Type} (f : Nat → β) (a : Nat) (b : β) : upd f a b a = b := if_pos rfl

theorem upd_other {β : Type} (f : Nat → β) {a x : Nat} (b : β) (h : x ≠ a) : upd f a b x = f x := if_neg h

theorem disc_spawnAll {G : Nat → Perms} (h : Apart R M W) {unit : V} {k : List Thread.JoinHandle → Proc V E} :
    ∀ (bs : List (Body V)) (hs : List Thread.JoinHandle) (Γ : Chans V),
      (∀ (i : Nat) h, hs[i]? = some h → Γ h.channel = some (fun _ => share R W i, .never)) →
      (∀ (i : Nat) b, bs[i]? = some b → b.Keeps R (W (hs.length + i))) →
      (∀ hs' Γ', hs'.length = hs.length + bs.length →
        (∀ (i : Nat) h, hs'[i]? = some h → Γ' h.channel = some (fun _ => share R W i, .never)) → Disc G (k hs') Γ' (keptBy R W 0 hs'.length)) →
      Disc G (spawnAll unit bs hs k) Γ (keptBy R W 0 hs.length)
  | [], hs, Γ, hΓ, _, hk => hk hs Γ rfl hΓ
  | b :: bs, hs, Γ, hΓ, hb, hk => by
    refine disc_spawn (share R W hs.length) (share R W hs.length) ?_ ?_ ?_
    · intro x hx
      refine ⟨?_, fun i _ hi hs' => ?_⟩
      · obtain ⟨a, t, h, _⟩ := hx
        exact ⟨a, t, h⟩
      · exact absurd (share_once h hs' hx) (by omega)
    · intro c hc
      exact body_share (hb 0 b rfl) ⟨_, _, upd_same _ _ _, fun _ h => h, trivial⟩
    · intro c hc
      have := disc_spawnAll (G := G) h (unit := unit) (k := k) bs (hs ++ [⟨c⟩]) (upd Γ c (some (fun _ => share R W hs.length, .never))) ?_ ?_ ?_
      · refine this.more fun x hx => ⟨⟨hx.1, fun i h1 h2 => hx.2 i h1 (by simp; omega)⟩, hx.2 _ (Nat.zero_le _) (by simp)⟩
      · intro i h' hi
        rcases Nat.lt_or_ge i hs.length with hlt | hge
        · rw [List.getElem?_append_left hlt] at hi
          have := hΓ i h' hi
          rw [upd_other _ _ (fun e => by rw [e, hc] at this; cases this)]
          exact this
        · rw [List.getElem?_append_right hge] at hi
          have e : i - hs.length = 0 := by simpa using (List.getElem?_eq_some_iff.1 hi).1
          rw [e] at hi
          obtain rfl : (⟨c⟩ : Thread.JoinHandle) = h' := by simpa using hi
          rw [upd_same]
          rw [show i = hs.length by omega]
      · intro i b' hi
        have := hb (i + 1) b' hi
        rwa [show (hs ++ [(⟨c⟩ : Thread.JoinHandle)]).length + i = hs.length + (i + 1) by simp; omega]
      · intro hs' Γ' hl hΓ'
        exact hk hs' Γ' (by simp at hl ⊢; omega) hΓ'

theorem disc_waitAll {G : Nat → Perms} {k : Proc V E} {Γ : Chans V} (n : Nat → Nat) (hk : ∀ X : Perms, (∀ a t, X (.var a t)) → Disc G k Γ X) {N : Nat} :
    ∀ (hs : List Thread.JoinHandle) (j : Nat), j + hs.length = N →
      (∀ (i : Nat) h, hs[i]? = some h → Γ h.channel = some (fun _ => share R W (j + i), .never)) →
      Disc G (waitAll n hs j k) Γ (keptBy R W j N)
  | [], j, hN, _ => by
    refine hk _ fun a t => ⟨⟨a, t, rfl⟩, fun i h1 h2 => ?_⟩
    simp at hN
    omega
  | h :: hs, j, hN, hΓ => by
    simp only [List.length_cons] at hN
    have hrest := disc_waitAll (N := N) n hk hs (j + 1) (by omega) fun i h' hi => by
      have := hΓ (i + 1) h' hi
      rwa [show j + 1 + i = j + (i + 1) by omega]
    have hh : Γ h.channel = some (fun _ => share R W j, .never) := hΓ 0 h rfl
    have hgot : Disc G (waitAll n hs (j + 1) k) Γ fun x => (keptBy R W j N x ∨ share R W j x) ∧ ∃ a t, x = .var a t := by
      refine hrest.more fun x hx => ⟨?_, hx.1⟩
      by_cases e : share R W j x
      · exact .inr e
      · refine .inl ⟨hx.1, fun i h1 h2 => ?_⟩
        rcases Nat.eq_or_lt_of_le h1 with rfl | h1
        · exact e
        · exact hx.2 i h1 h2
    have : ∀ m, Disc G (wait m h (waitAll n hs (j + 1) k)) Γ (keptBy R W j N) := by
      intro m
      induction m with
      | zero => exact disc_join hh hgot
      | succ m ih => exact disc_isFinished hh hgot ih
    exact this (n j)
end

section
variable {R M : Nat → Prop} {W : Nat → Nat → Prop}

/-- The permissions to receive from these futures. -/
def futs (hs : List Gokio.Future) : Perms := fun x => ∃ h ∈ hs, x = .recv h.ch

theorem disc_gspawnAll {G : Nat → Perms} (h : Apart R M W) {v : V} {k : List Gokio.Future → Proc V E} :
    ∀ (bs : List (Body V)) (hs : List Gokio.Future) (Γ : Chans V), (hs.map Gokio.Future.ch).Nodup →
      (∀ (i : Nat) h, hs[i]? = some h → Γ h.ch = some (fun _ => share R W i, .once)) →
      (∀ (i : Nat) b, bs[i]? = some b → b.Keeps R (W (hs.length + i))) →
      (∀ hs' Γ', hs'.length = hs.length + bs.length → (hs'.map Gokio.Future.ch).Nodup →
        (∀ (i : Nat) h, hs'[i]? = some h → Γ' h.ch = some (fun _ => share R W i, .once)) →
          Disc G (k hs') Γ' fun x => keptBy R W 0 hs'.length x ∨ futs hs' x) →
      Disc G (gspawnAll v bs hs k) Γ fun x => keptBy R W 0 hs.length x ∨ futs hs x
  | [], hs, Γ, hn, hΓ, _, hk => hk hs Γ rfl hn hΓ
  | b :: bs, hs, Γ, hn, hΓ, hb, hk => by
    refine disc_gspawn (share R W hs.length) (fun _ => share R W hs.length) ?_ ?_ ?_ ?_
    · intro x hx
      refine .inl ⟨?_, fun i _ hi hs' => ?_⟩
      · obtain ⟨a, t, h, _⟩ := hx
        exact ⟨a, t, h⟩
      · exact absurd (share_once h hs' hx) (by omega)
    · rintro x ⟨a, t, h, _⟩
      exact ⟨a, t, h⟩
    · intro c hc
      exact body_share (hb 0 b rfl) (disc_return (upd_same _ _ _) fun _ h => h)
    · intro c hc
      have hne : ∀ h' ∈ hs, h'.ch ≠ c := by
        intro h' hm e
        obtain ⟨i, hi⟩ := List.mem_iff_getElem?.1 hm
        have := hΓ i h' hi
        rw [e, hc] at this
        cases this
      have := disc_gspawnAll (G := G) h (v := v) (k := k) bs (hs ++ [⟨c⟩]) (upd Γ c (some (fun _ => share R W hs.length, .once))) ?_ ?_ ?_ ?_
      · refine this.more fun x hx => ?_
        rcases hx with hx | ⟨h', hm, rfl⟩
        · exact .inl ⟨.inl ⟨hx.1, fun i h1 h2 => hx.2 i h1 (by simp; omega)⟩, hx.2 _ (Nat.zero_le _) (by simp)⟩
        · rcases List.mem_append.1 hm with hm | hm
          · refine .inl ⟨.inr ⟨h', hm, rfl⟩, ?_⟩
            rintro ⟨a, t, h, _⟩
            cases h
          · rw [List.mem_singleton.1 hm]
            exact .inr rfl
      · rw [List.map_append]
        refine List.nodup_append.2 ⟨hn, by simp, ?_⟩
        intro a ha b hb'
        obtain ⟨h', hm, rfl⟩ := List.mem_map.1 ha
        obtain rfl : b = c := by simpa using hb'
        exact hne h' hm
      · intro i h' hi
        rcases Nat.lt_or_ge i hs.length with hlt | hge
        · rw [List.getElem?_append_left hlt] at hi
          have := hΓ i h' hi
          rw [upd_other _ _ (fun e => by rw [e, hc] at this; cases this)]
          exact this
        · rw [List.getElem?_append_right hge] at hi
          have e : i - hs.length = 0 := by simpa using (List.getElem?_eq_some_iff.1 hi).1
          rw [e] at hi
          obtain rfl : (⟨c⟩ : Gokio.Future) = h' := by simpa using hi
          rw [upd_same]
          rw [show i = hs.length by omega]
      · intro i b' hi
        have := hb (i + 1) b' hi
        rwa [show (hs ++ [(⟨c⟩ : Gokio.Future)]).length + i = hs.length + (i + 1) by simp; omega]
      · intro hs' Γ' hl hn' hΓ'
        exact hk hs' Γ' (by simp at hl ⊢; omega) hn' hΓ'

theorem disc_awaitAll {G : Nat → Perms} {zero : V} {k : Proc V E} {Γ : Chans V} (hk : ∀ X : Perms, (∀ a t, X (.var a t)) → Disc G k Γ X) {N : Nat} :
    ∀ (hs : List Gokio.Future) (j : Nat), j + hs.length = N → (hs.map Gokio.Future.ch).Nodup →
      (∀ (i : Nat) h, hs[i]? = some h → Γ h.ch = some (fun _ => share R W (j + i), .once)) →
      Disc G (awaitAll zero hs k) Γ fun x => keptBy R W j N x ∨ futs hs x
  | [], j, hN, _, _ => by
    refine hk _ fun a t => .inl ⟨⟨a, t, rfl⟩, fun i h1 h2 => ?_⟩
    simp at hN
    omega
  | h :: hs, j, hN, hn, hΓ => by
    simp only [List.length_cons] at hN
    rw [List.map_cons, List.nodup_cons] at hn
    have hrest := disc_awaitAll (zero := zero) (N := N) hk hs (j + 1) (by omega) hn.2 fun i h' hi => by
      have := hΓ (i + 1) h' hi
      rwa [show j + 1 + i = j + (i + 1) by omega]
    have hh : Γ h.ch = some (fun _ => share R W j, .once) := hΓ 0 h rfl
    refine disc_await hh (.inr ⟨h, List.mem_cons_self, rfl⟩) fun v => hrest.more fun x hx => ?_
    rcases hx with hx | ⟨h', hm, rfl⟩
    · refine ⟨?_, ?_⟩
      · by_cases e : share R W j x
        · exact .inr e
        · refine .inl (.inl ⟨hx.1, fun i h1 h2 => ?_⟩)
          rcases Nat.eq_or_lt_of_le h1 with rfl | h1
          · exact e
          · exact hx.2 i h1 h2
      · obtain ⟨⟨a, t, rfl⟩, _⟩ := hx
        simp
    · refine ⟨.inl (.inr ⟨h', List.mem_cons_of_mem _ hm, rfl⟩), ?_, by simp⟩
      intro e
      injection e with e
      exact hn.1 (e ▸ List.mem_map.2 ⟨h', hm, rfl⟩)
end

/-- No Mutexes. -/
def noGuards : Nat → Perms := fun _ _ => False

theorem noGuards_ok : Guards noGuards := ⟨fun _ _ h => h.elim, fun _ _ _ h => h.elim⟩

/-! ### Tasks with Mutexes -/

/-- Each Mutex keeps its value. -/
def values : Nat → Perms := fun m x => ∃ t, x = .var m t

theorem values_ok : Guards values := by
  refine ⟨fun m x ⟨t, h⟩ => ⟨m, t, h⟩, ?_⟩
  rintro m m' x ⟨t, rfl⟩ ⟨t', h⟩
  cases h
  rfl

theorem code_disc {rank : Nat → Nat} {all : Bool} {zero : V} (code : TaskLocks.Code V) :
    ∀ {base : Nat} {held fs : List Nat} {hs : List Gokio.Future} {k : V → Proc V V} {Γ : Chans V} {X : Perms}, code.Ok rank all base held fs →
      held.Nodup → (∀ h ∈ hs, Γ h.ch = some (fun _ _ => False, .many)) → (∀ m ∈ held, ∀ t, X (.var m t)) →
      (∀ v (Γ' : Chans V) X', (∀ c S, Γ c = some S → Γ' c = some S) → Disc values (k v) Γ' X') → Disc values (code.proc zero id hs k) Γ X := by
  induction code with
  | ret v =>
    intro _ _ _ hs k Γ X _ _ _ _ hk
    exact hk v Γ X fun _ _ h => h
  | spawn child r ih1 ih2 =>
    intro base held fs hs k Γ X hok hn hΓ hX hk
    obtain ⟨l, h1, h2⟩ := hok
    refine ⟨rfl, (fun _ _ => False, .many), fun c hc => ⟨fun _ => False, X, fun _ h => h.elim, fun _ h => .inl h, fun _ h => h.elim, ?_, ?_⟩⟩
    · refine ih1 h1 (by simp) (by simp) (by simp) ?_
      intro v Γ' X' hΓ'
      have := hΓ' c _ (upd_same _ _ _)
      exact ⟨_, _, this, fun _ h => h.elim, _, _, this, .inl rfl, trivial⟩
    · have hle : ∀ d S, Γ d = some S → upd Γ c (some (fun (_ : V) (_ : Item) => False, Use.many)) d = some S := fun d S hd => by
        rw [upd_other _ _ (fun e => by rw [e, hc] at hd; cases hd)]; exact hd
      refine ih2 h2 hn ?_ hX fun v Γ' X' h => hk v Γ' X' fun d S hd => h d S (hle d S hd)
      intro h hm
      rcases List.mem_append.1 hm with hm | hm
      · exact hle _ _ (hΓ h hm)
      · rw [List.mem_singleton.1 hm]
        exact upd_same _ _ _
  | await i r ih =>
    intro base held fs hs k Γ X hok hn hΓ hX hk
    obtain ⟨l, _, _, _, h4⟩ := hok
    simp only [TaskLocks.Code.proc]
    cases hh : hs[i]? with
    | none => trivial
    | some h =>
      have hrest : ∀ v (X' : Perms), (∀ m ∈ held, ∀ t, X' (.var m t)) →
          Disc values ((r v).proc zero id (hs.eraseIdx i) k) Γ X' := fun v X' hX' =>
        ih v (h4 v) hn (fun h hm => hΓ h ((List.eraseIdx_sublist hs i).subset hm)) hX' hk
      refine ⟨_, _, hΓ h (List.mem_of_getElem? hh), by simp, fun v => hrest v _ fun m hm t => ⟨.inl (hX m hm t), by simp, by simp⟩, fun _ => hrest _ _ hX⟩
  | lock m r ih =>
    intro base held fs hs k Γ X hok hn hΓ hX hk
    obtain ⟨_, h2, h3⟩ := hok
    rw [TaskLocks.lock_proc]
    refine ih h3 (List.nodup_cons.2 ⟨fun hm => Nat.lt_irrefl _ (h2 m hm), hn⟩) hΓ ?_ hk
    intro m' hm t
    rcases List.mem_cons.1 hm with rfl | hm
    · exact .inr ⟨t, rfl⟩
    · exact .inl (hX m' hm t)
  | unlock m r ih =>
    intro base held fs hs k Γ X hok hn hΓ hX hk
    obtain ⟨h1, h2⟩ := hok
    refine ⟨?_, ih h2 (hn.sublist List.erase_sublist) hΓ ?_ hk⟩
    · rintro x ⟨t, rfl⟩
      exact hX m h1 t
    · intro m' hm t
      rw [hn.mem_erase_iff] at hm
      refine ⟨hX m' hm.2 t, ?_⟩
      rintro ⟨t', h⟩
      cases h
      exact hm.1 rfl
  | get m r ih =>
    intro base held fs hs k Γ X hok hn hΓ hX hk
    exact ⟨⟨0, hX m hok.1 0⟩, fun v => ih v (hok.2 v) hn hΓ hX hk⟩
  | put m v r ih =>
    intro base held fs hs k Γ X hok hn hΓ hX hk
    exact ⟨hX m hok.1, ih hok.2 hn hΓ hX hk⟩

/-! ### The goroutines of C81 -/

/-- The Mutex 0 keeps the variable 0. -/
def guard0 : Nat → Perms := fun m x => m = 0 ∧ ∃ t, x = .var 0 t

theorem guard0_ok : Guards guard0 := by
  refine ⟨fun m x ⟨_, t, h⟩ => ⟨0, t, h⟩, ?_⟩
  rintro m m' x ⟨rfl, _⟩ ⟨rfl, _⟩
  rfl

theorem disc_goAll {G : Nat → Perms} {Γ : Chans V} {X : Perms} {k : Proc V E} (hk : Disc G k Γ X) :
    ∀ ps : List (Proc V E), (∀ p ∈ ps, Disc G p Γ fun _ => False) → Disc G (goAll ps k) Γ X
  | [], _ => hk
  | p :: ps, h => ⟨fun _ => False, X, fun _ h => h.elim, fun _ h => h, fun _ h => h.elim, h p List.mem_cons_self,
      disc_goAll hk ps fun q hq => h q (List.mem_cons_of_mem _ hq)⟩

theorem disc_body {Γ : Chans V} {X : Perms} {k : Proc V (Mutex.Event V)} (hX : ∀ t, X (.var 0 t)) (hk : Disc guard0 k Γ X) :
    ∀ gs : List (V → V), Disc guard0 (Mutex.body 0 gs k) Γ X
  | [] => hk
  | _ :: gs => ⟨⟨0, hX 0⟩, fun _ => ⟨hX, disc_body hX hk gs⟩⟩

theorem disc_client {Γ : Chans V} (i : Nat) : ∀ (cs : List (Bool × List (V → V))) (X : Perms), Disc guard0 (Mutex.client (Mutex.new 0 0) i cs) Γ X
  | [], _ => trivial
  | (b, gs) :: r, X => by
    have key : ∀ Y : Perms, (∀ t, Y (.var 0 t)) → Disc guard0 (Mutex.body 0 gs (.emit (.left i) ((Mutex.new 0 0).unlock (Mutex.client (Mutex.new 0 0) i r)))) Γ Y := by
      intro Y hY
      refine disc_body hY ?_ gs
      refine ⟨?_, disc_client i r _⟩
      rintro x ⟨_, t, rfl⟩
      exact hY t
    cases b with
    | false => exact key _ fun t => .inr ⟨rfl, t, rfl⟩
    | true =>
      rw [Mutex.tryLock_eq]
      exact ⟨key _ fun t => .inr ⟨rfl, t, rfl⟩, disc_client i r _⟩

/-! ### Programs with races -/

/-- Two accesses in conflict, one directly after the other, by goroutines that differ. -/
theorem race_last (l : List Act) {x y : Act} {i j a : Nat} {v w : Bool} (hx : x.access = some (a, v)) (hy : y.access = some (a, w))
    (hvw : v = true ∨ w = true) (hi : x.actors = [i]) (hj : y.actors = [j]) (hij : i ≠ j) : Race (l ++ [x, y]) := by
  have gx : (l ++ [x, y])[l.length]? = some x := by simp
  have gy : (l ++ [x, y])[l.length + 1]? = some y := by simp
  have no : ∀ p q, HB (l ++ [x, y]) p q → p ≠ l.length := by
    intro p q h
    induction h with
    | @order p q n b c hpq hp hq hb hc =>
      rintro rfl
      have hq' := get_lt hq
      obtain rfl : q = l.length + 1 := by simp at hq'; omega
      rw [gx] at hp
      rw [gy] at hq
      cases hp
      cases hq
      rw [hi, List.mem_singleton] at hb
      rw [hj, List.mem_singleton] at hc
      exact hij (hb.symm.trans hc)
    | mutex hpq hp hq =>
      rintro rfl
      rw [gx] at hp
      cases hp
      cases hx
    | closed hpq hp hq =>
      rintro rfl
      rw [gx] at hp
      cases hp
      cases hx
    | trans _ _ h1 _ => exact h1
  exact ⟨l.length, l.length + 1, by omega, ⟨x, y, a, v, w, gx, gy, hx, hy, hvw⟩, fun h => no _ _ h rfl, fun h => absurd (HB.lt h) (by omega)⟩

/-- main asks `n` times whether the goroutine has finished; if it never has, main reads the variable all the same. -/
def impatient (h : Thread.JoinHandle) (a : Nat) : Nat → Proc V E
  | 0 => .load a fun _ => .done
  | n + 1 => Thread.isFinished h fun b => if b then .done else impatient h a n

/-- The configuration of main and one other goroutine. -/
def pair (main other : Proc V E) (vars : Nat → V) : Config V E := ⟨[main, other], [⟨0, [], false⟩], fun _ => false, vars, false⟩

theorem impatient_run {s : Config V E} {a : Nat} {p : Proc V E} {vars : Nat → V} (hp : ∀ v k, p ≠ .parked 0 v k) :
    ∀ (n : Nat) (as : List Act), Exec s as (pair (impatient ⟨0⟩ a n) p vars) → ∃ as', Exec s as' (pair (.load a fun _ => .done) p vars)
  | 0, as, h => ⟨as, h⟩
  | n + 1, as, h => by
    have hn : ∀ (i : Nat) (v : V) (k : Proc V E), (pair (impatient ⟨0⟩ a (n + 1)) p vars).procs[i]? ≠ some (.parked 0 v k) := by
      intro i v k hi
      match i, hi with
      | 0, hi => cases hi
      | 1, hi => exact hp v k (by simpa [pair] using hi)
      | i + 2, hi => simp [pair] at hi
    exact impatient_run hp n _ (h.step (.pollDefault (j := 0) (ch := ⟨0, [], false⟩) rfl rfl rfl rfl rfl hn))

open TaskData in
theorem reads_run {s : Config V (List V)} {vars : Nat → V} {main : Proc V (List V)} {k : List V → Proc V (List V)} (r : List Nat) :
    ∀ (l : List Nat) (acc : List V) (as : List Act), Exec s as (pair main (readAll (l ++ r) acc k) vars) →
      ∃ acc', Exec s (as ++ l.map (Act.load 1)) (pair main (readAll r acc' k) vars)
  | [], acc, as, h => ⟨acc, by simpa using h⟩
  | a :: l, acc, as, h => by
    have h1 := h.step (.load (i := 1) (a := a) (k := fun x => readAll (l ++ r) (acc ++ [x]) k) rfl rfl)
    obtain ⟨acc', h'⟩ := reads_run (vars := vars) r l _ _ h1
    exact ⟨acc', by simpa using h'⟩

open TaskData in
theorem stores_run {s : Config V (List V)} {other : Proc V (List V)} {k : Proc V (List V)} (r : List (Nat × V)) :
    ∀ (l : List (Nat × V)) (vars : Nat → V) (as : List Act), Exec s as (pair (storeAll (l ++ r) k) other vars) →
      ∃ as' vars', Exec s as' (pair (storeAll r k) other vars')
  | [], vars, as, h => ⟨as, vars, h⟩
  | _ :: l, _, _, h => stores_run r l _ _ (h.step (.store (i := 0) rfl rfl))

open TaskData in
theorem disc_storeAll {G : Nat → Perms} {Γ : Chans V} {X : Perms} {k : Proc V (List V)} (hk : Disc G k Γ X) :
    ∀ ws : List (Nat × V), (∀ w ∈ ws, ∀ t, X (.var w.1 t)) → Disc G (storeAll ws k) Γ X
  | [], _ => hk
  | w :: ws, h => ⟨h w List.mem_cons_self, disc_storeAll hk ws fun w' hw => h w' (List.mem_cons_of_mem _ hw)⟩

open TaskData in
theorem disc_readAll {G : Nat → Perms} {Γ : Chans V} {X : Perms} {k : List V → Proc V (List V)} (hk : ∀ l, Disc G (k l) Γ X) :
    ∀ (as : List Nat) (acc : List V), (∀ a ∈ as, ∃ t, X (.var a t)) → Disc G (readAll as acc k) Γ X
  | [], acc, _ => hk acc
  | a :: as, _, h => ⟨h a List.mem_cons_self, fun _ => disc_readAll hk as _ fun b hb => h b (List.mem_cons_of_mem _ hb)⟩
end Race
open Race

/-- **C166.** Goroutines started by Spawn that write in parts of their own only, and read there and in what nobody writes, have no data races
with each other and with main, which prepares everything before, does its own part meanwhile, waits for each of them by Join or until
IsFinished answers true, and then uses everything. -/
theorem C166_parts {R M : Nat → Prop} {W : Nat → Nat → Prop} (hA : Apart R M W) (unit : V) (vars : Nat → V) (pre : Body V) (bodies : List (Body V))
    (mid : Body V) (n : Nat → Nat) (post : Body V) (hb : ∀ (j : Nat) b, bodies[j]? = some b → b.Keeps R (W j)) (hm : mid.Keeps R M)
    {as : List Act} {s : Config V E} (h : Exec (start vars (parts unit pre bodies mid n post)) as s) : ¬ Race as := by
  refine C166_discipline noGuards_ok ?_ h
  refine body_all pre (fun a t => ⟨⟨a, t, rfl⟩, fun _ h => h⟩) ?_
  refine (disc_spawnAll hA bodies [] (fun _ => none) (fun i h' hi => by simp at hi) (fun i b hi => by simpa using hb i b hi) ?_).more
    fun x hx => ⟨hx.1, fun _ h => h⟩
  intro hs Γ _ hΓ
  refine body_main hA hm (fun _ h => h) ?_
  exact disc_waitAll n (fun X hX => body_all post (p := .done) hX trivial) hs 0 (Nat.zero_add _) fun i h' hi => by rw [Nat.zero_add]; exact hΓ i h' hi

/-- **C166**, the same for tasks of gokio that are awaited. -/
theorem C166_await {R M : Nat → Prop} {W : Nat → Nat → Prop} (hA : Apart R M W) (zero v : V) (vars : Nat → V) (pre : Body V) (bodies : List (Body V))
    (mid post : Body V) (hb : ∀ (j : Nat) b, bodies[j]? = some b → b.Keeps R (W j)) (hm : mid.Keeps R M)
    {as : List Act} {s : Config V E} (h : Exec (start vars (gparts zero v pre bodies mid post)) as s) : ¬ Race as := by
  refine C166_discipline noGuards_ok ?_ h
  refine body_all pre (fun a t => ⟨⟨a, t, rfl⟩, fun _ h => h⟩) ?_
  refine (disc_gspawnAll hA bodies [] (fun _ => none) (by simp) (fun i h' hi => by simp at hi) (fun i b hi => by simpa using hb i b hi) ?_).more
    fun x hx => ?_
  · intro hs Γ _ hn hΓ
    refine body_main hA hm (fun _ h => .inl h) ?_
    exact disc_awaitAll (fun X hX => body_all post (p := .done) hX trivial) hs 0 (Nat.zero_add _) hn fun i h' hi => by
      rw [Nat.zero_add]; exact hΓ i h' hi
  · rcases hx with hx | ⟨h', hm, _⟩
    · exact ⟨hx.1, fun _ h => h⟩
    · cases hm

/-- **C166.** Tasks that spawn and await tasks and share Mutexes, and use the value of a Mutex between Lock and Unlock only (the programs of
C164 and C165), have no data races. -/
theorem C166_tasks (rank : Nat → Nat) (zero : V) (f : Nat → V) {base : Nat} {code : TaskLocks.Code V} (hs : code.Ok rank false base [] [])
    {as : List Act} {s : Config V V} (h : Exec (TaskLocks.program zero f code) as s) : ¬ Race as :=
  C166_discipline values_ok (code_disc (k := fun v => .emit v .done) code hs (by simp) (by simp) (by simp) fun _ _ _ _ => trivial) h

/-- **C166.** Goroutines that go through critical sections, entered by Lock or TryLock (the programs of C81), have no data races. -/
theorem C166_mutex (v : V) (clients : List (List (Bool × List (V → V)))) {as : List Act} {s : Config V (Mutex.Event V)}
    (h : Exec (Mutex.program v clients) as s) : ¬ Race as := by
  refine C166_discipline guard0_ok (disc_goAll (k := .done) trivial _ ?_) h
  intro p hp
  obtain ⟨c, _, rfl⟩ := List.mem_map.1 hp
  exact disc_client _ _ _

/-- C166, why waiting is needed: a goroutine writes a variable and main reads it without having waited, although IsFinished has answered false
`n` times.  There is an execution with a data race. -/
theorem C166_impatient (unit v : V) (vars : Nat → V) (a n : Nat) :
    ∃ as s, Exec (start vars (Thread.spawn unit (fun k => .store a v k) fun h => impatient h a n) : Config V E) as s ∧ Race as := by
  have r1 := Exec.nil (start vars (Thread.spawn unit (fun k => .store a v k) fun h => impatient h a n) : Config V E)
  have r2 := (r1.step (.make (i := 0) rfl rfl)).step (.go (i := 0) rfl rfl)
  obtain ⟨as, r3⟩ := impatient_run (by simp) n _ r2
  have r4 := (r3.step (.store (i := 1) rfl rfl)).step (.load (i := 0) rfl rfl)
  rw [List.append_assoc] at r4
  exact ⟨_, _, r4, race_last as rfl rfl (.inl rfl) rfl rfl (by simp)⟩

/-- C103 fails: goroutines that update a value through a Mutex and a copy of it have a data race. -/
theorem C103_race_fails (v : V) (g g' : V → V) :
    ∃ as s, Exec (start (fun _ => v) (goAll [Mutex.client (Mutex.new 0 0) 0 [(false, [g])],
      Mutex.client (Mutex.copy (Mutex.new 0 0) 1) 1 [(false, [g'])]] .done)) as s ∧ Race as := by
  have r1 := Exec.nil (start (fun _ => v) (goAll [Mutex.client (Mutex.new 0 0) 0 [(false, [g])],
    Mutex.client (Mutex.copy (Mutex.new 0 0) 1) 1 [(false, [g'])]] .done))
  have r2 := (r1.step (.go (i := 0) rfl rfl)).step (.go (i := 0) rfl rfl)
  have r3 := (r2.step (.lock (i := 1) rfl rfl rfl)).step (.lock (i := 2) rfl rfl rfl)
  have r4 := (r3.step (.emit (i := 1) rfl rfl)).step (.emit (i := 2) rfl rfl)
  have r5 := (r4.step (.load (i := 1) rfl rfl)).step (.load (i := 2) rfl rfl)
  have r6 := (r5.step (.store (i := 1) rfl rfl)).step (.store (i := 2) rfl rfl)
  rw [List.append_assoc] at r6
  exact ⟨_, _, r6, race_last _ rfl rfl (.inl rfl) rfl rfl (by simp)⟩

/-- C161: the program that calls gokio.Write, changes variables and then awaits the future has no data races exactly if none of the variables
changed before the Await belongs to the data. -/
theorem C161_race_iff (f : Nat → V) (as : List Nat) (ok : V) (ws more : List (Nat × V)) :
    (∀ acts s, Exec (TaskData.program f as ok ws more) acts s → ¬ Race acts) ↔ ∀ w ∈ ws, w.1 ∉ as := by
  constructor
  · intro h w hw ha
    obtain ⟨a, v⟩ := w
    obtain ⟨w1, w2, rfl⟩ := List.append_of_mem hw
    obtain ⟨l1, l2, rfl⟩ := List.append_of_mem ha
    have r1 := Exec.nil (TaskData.program f (l1 ++ a :: l2) ok (w1 ++ (a, v) :: w2) more)
    have r2 := (r1.step (.make (i := 0) rfl rfl)).step (.go (i := 0) rfl rfl)
    obtain ⟨as1, vars, r3⟩ := stores_run _ w1 _ _ r2
    obtain ⟨acc, r4⟩ := reads_run _ l1 _ _ r3
    have r5 := (r4.step (.load (i := 1) rfl rfl)).step (.store (i := 0) rfl rfl)
    rw [List.append_assoc] at r5
    exact h _ _ r5 (race_last _ rfl rfl (.inr rfl) rfl rfl (by simp))
  · intro h acts s hx
    refine C166_discipline noGuards_ok ?_ hx
    refine disc_gspawn (fun x => ∃ a ∈ as, x = .var a 0) (fun _ x => ∃ a ∈ as, x = .var a 0) ?_ ?_ ?_ ?_
    · rintro x ⟨a, _, rfl⟩
      exact ⟨⟨a, 0, rfl⟩, fun _ h => h⟩
    · rintro x ⟨a, _, rfl⟩
      exact ⟨a, 0, rfl⟩
    · intro c _
      refine disc_readAll (fun l => ?_) as [] fun a ha => ⟨0, a, ha, rfl⟩
      exact disc_return (S := fun _ x => ∃ a ∈ as, x = .var a 0) (upd_same _ _ _) fun _ h => h
    · intro c _
      refine disc_storeAll ?_ ws ?_
      · refine disc_await (upd_same _ _ _) (.inr rfl) fun v => disc_storeAll (k := .done) trivial more fun w _ t => ⟨?_, by simp, by simp⟩
        by_cases e : ∃ a ∈ as, Item.var w.1 t = .var a 0
        · exact .inr e
        · exact .inl (.inl ⟨⟨⟨_, _, rfl⟩, fun _ h => h⟩, e⟩)
      · intro w hw t
        refine .inl ⟨⟨⟨_, _, rfl⟩, fun _ h => h⟩, ?_⟩
        rintro ⟨a, ha, e⟩
        cases e
        exact h w hw ha

-- Two goroutines read variable 0 and write variables 1 and 2; main writes variable 0 before, reads it meanwhile, asks the second of them twice
-- whether it has finished, and uses everything at the end.
example : Apart (fun a => a = 0) (fun a => a = 3) (fun j a => a = j + 1 ∧ j < 2) :=
  ⟨fun i j a h1 h2 => by omega, fun i a h1 h2 => by omega, fun i a h1 h2 => by omega, fun a h1 h2 => by omega⟩

example (vars : Nat → Nat) {as : List Act} {s : Config Nat Unit}
    (h : Exec (start vars (parts 0 (.put 0 5 (.put 2 1 .skip)) [.get 0 fun v => .put 1 (v + 1) .skip, .get 0 fun v => .put 2 v (.get 2 fun _ => .skip)]
      (.get 0 fun v => .put 3 v .skip) (fun j => 2 * j) (.get 1 fun x => .get 2 fun y => .put 0 (x + y) .skip))) as s) : ¬ Race as := by
  refine C166_parts (R := fun a => a = 0) (M := fun a => a = 3) (W := fun j a => a = j + 1 ∧ j < 2)
    ⟨fun i j a h1 h2 => by omega, fun i a h1 h2 => by omega, fun i a h1 h2 => by omega, fun a h1 h2 => by omega⟩ _ _ _ _ _ _ _ ?_ ?_ h
  · intro j b hb
    match j with
    | 0 => obtain rfl : _ = b := by simpa using hb
           exact ⟨.inl rfl, fun v => ⟨⟨rfl, by omega⟩, trivial⟩⟩
    | 1 => obtain rfl : _ = b := by simpa using hb
           exact ⟨.inl rfl, fun v => ⟨⟨rfl, by omega⟩, .inr ⟨rfl, by omega⟩, fun _ => trivial⟩⟩
    | j + 2 => simp at hb
  · exact ⟨.inl rfl, fun v => ⟨rfl, trivial⟩⟩

-- an execution in which main reads what a goroutine has written, after IsFinished has answered false and then true
example (vars : Nat → Nat) : ∃ s, Exec (start vars (parts 0 .skip [.put 1 7 .skip] .skip (fun _ => 2) (.get 1 fun x => .put 2 x .skip)) : Config Nat Unit)
    [.step 0, .go 0 1, .step 0, .store 1 1, .step 1, .meet 1 0 0, .load 0 1, .store 0 2] s ∧ s.vars 2 = 7 ∧
    Conflict [.step 0, .go 0 1, .step 0, .store 1 1, .step 1, .meet 1 0 0, .load 0 1, .store 0 2] 3 6 := by
  have r1 := Exec.nil (start vars (parts 0 .skip [.put 1 7 .skip] .skip (fun _ => 2) (.get 1 fun x => .put 2 x .skip)) : Config Nat Unit)
  have r2 := (r1.step (.make (i := 0) rfl rfl)).step (.go (i := 0) rfl rfl)
  have r3 := r2.step (.pollDefault (j := 0) (ch := ⟨0, [], false⟩) rfl rfl rfl rfl rfl (by
    intro i v k hi
    match i, hi with
    | 0, hi => cases hi
    | 1, hi => cases hi
    | i + 2, hi => cases hi))
  have r4 := (r3.step (.store (i := 1) rfl rfl)).step (.park (i := 1) (ch := ⟨0, [], false⟩) rfl rfl rfl rfl)
  have r5 := r4.step (.meetPoll (i := 1) (j := 0) (ch := ⟨0, [], false⟩) rfl (.waiting rfl) rfl rfl rfl rfl)
  have r6 := (r5.step (.load (i := 0) rfl rfl)).step (.store (i := 0) rfl rfl)
  exact ⟨_, r6, rfl, ⟨.store 1 1, .load 0 1, 1, true, false, rfl, rfl, rfl, rfl, .inl rfl⟩⟩

-- an execution in which a future is awaited twice: the second Await finds the channel closed
example (vars : Nat → Nat) : ∃ s, Exec (start vars (Gokio.spawn (fun ret => .store 0 7 (ret 1)) fun h => Gokio.await 0 h fun _ => Gokio.await 0 h fun _ =>
      .load 0 fun x => .store 1 x .done) : Config Nat Unit)
    [.step 0, .go 0 1, .store 1 0, .step 1, .meet 1 0 0, .close 1 0, .closed 0 0, .load 0 0, .store 0 1] s ∧ s.vars 1 = 7 := by
  have r1 := Exec.nil (start vars (Gokio.spawn (fun ret => .store 0 7 (ret 1)) fun h => Gokio.await 0 h fun _ => Gokio.await 0 h fun _ =>
      .load 0 fun x => .store 1 x .done) : Config Nat Unit)
  have r2 := (r1.step (.make (i := 0) rfl rfl)).step (.go (i := 0) rfl rfl)
  have r3 := (r2.step (.store (i := 1) rfl rfl)).step (.park (i := 1) (ch := ⟨0, [], false⟩) rfl rfl rfl rfl)
  have r4 := r3.step (.meet (i := 1) (j := 0) (ch := ⟨0, [], false⟩) rfl (.waiting rfl) rfl rfl rfl rfl)
  have r5 := (r4.step (.close (i := 1) (ch := ⟨0, [], false⟩) rfl rfl rfl rfl)).step (.recvClosed (j := 0) (ch := ⟨0, [], true⟩) rfl rfl rfl rfl rfl)
  have r6 := (r5.step (.load (i := 0) rfl rfl)).step (.store (i := 0) rfl rfl)
  exact ⟨_, r6, rfl⟩

-- tasks that count their calls (C164)
example (n : Nat) {as : List Act} {s : Config Nat Nat} (h : Exec (TaskLocks.program 0 (fun _ => 0) (fibCounted n)) as s) : ¬ Race as :=
  C166_tasks (fun _ => 0) 0 _ (fibCounted_ok _ _ n) h

-- there are races: two goroutines that use no Mutex
example : Race [.go 0 1, .store 1 5, .load 0 5] := race_last [.go 0 1] rfl rfl (.inl rfl) rfl rfl (by simp)
-- a Mutex orders them
example : ¬ Race [.go 0 1, .lock 1 0, .store 1 5, .unlock 1 0, .lock 0 0, .load 0 5] := by
  rintro ⟨p, q, hpq, ⟨x, y, a, v, w, hx, hy, ha, hb, _⟩, hn, _⟩
  have hq := get_lt hy
  simp only [List.length_cons, List.length_nil] at hq
  have : p = 2 ∧ q = 5 := by
    have h1 : p = 2 ∨ p = 5 := by
      rcases p with _ | _ | _ | _ | _ | _ | p <;> simp at hx <;> subst hx <;> (try cases ha) <;> omega
    have h2 : q = 2 ∨ q = 5 := by
      rcases q with _ | _ | _ | _ | _ | _ | q <;> simp at hy <;> subst hy <;> (try cases hb) <;> omega
    omega
  obtain ⟨rfl, rfl⟩ := this
  exact hn (.trans (q := 3) (.order (i := 1) (by omega) rfl rfl (by simp [Act.actors]) (by simp [Act.actors]))
    (.trans (q := 4) (.mutex (by omega) rfl rfl) (.order (i := 0) (by omega) rfl rfl (by simp [Act.actors]) (by simp [Act.actors]))))
end Gost
