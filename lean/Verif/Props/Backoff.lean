import Verif.Props.Transactions
/-
Property C167: transactions that take Mutexes by TryLock and back off.
-/
namespace Gost
open Conc
namespace Backoff
open Tx (Body mutex upd_id)
variable {V : Type}

/-! ### Programs -/

/-- How a transaction takes a Mutex: by Lock, or by TryLock. -/
structure Take where
  waits : Bool
  m : Nat

/-- A transaction: the Mutexes to take, in this order, the body, and the order of the Unlocks.  When a TryLock fails, the Mutexes
taken so far, which `back` is given, are unlocked in the order `back` says. -/
structure Txn (V : Type) where
  takes : List Take
  body : Body V
  unlocks : List Nat
  back : List Nat → List Nat

def Txn.locks (t : Txn V) : List Nat := t.takes.map Take.m

/-- A goroutine: transactions, each of which may depend on the results of the earlier ones; `none` is the result of a transaction
that was given up. -/
inductive Client (V : Type) where
  | stop
  | txn (t : Txn V) (k : Option V → Client V)

/-- `p := m.Lock()` or `r := m.TryLock()` for each of the Mutexes; `held` are those taken before, `p` the pointers obtained. -/
def takeAll (lost : List Nat → Proc V (Nat × Option V)) :
    List Take → List Nat → (Nat → Nat) → ((Nat → Nat) → Proc V (Nat × Option V)) → Proc V (Nat × Option V)
  | [], _, p, k => k p
  | ⟨true, m⟩ :: ts, held, p, k => (mutex m).lock_ fun ptr => takeAll lost ts (held ++ [m]) (upd p m ptr) k
  | ⟨false, m⟩ :: ts, held, p, k => (mutex m).tryLock fun r => match r with
    | some ptr => takeAll lost ts (held ++ [m]) (upd p m ptr) k
    | none => lost held

/-- `m.Unlock()` for each of the Mutexes. -/
def unlockAll : List Nat → Proc V (Nat × Option V) → Proc V (Nat × Option V)
  | [], k => k
  | m :: ms, k => (mutex m).unlock (unlockAll ms k)

/-- The body with the pointers `p`. -/
def bodyProc (p : Nat → Nat) : Body V → (V → Proc V (Nat × Option V)) → Proc V (Nat × Option V)
  | .ret v, k => k v
  | .get m b, k => .load (p m) fun x => bodyProc p (b x) k
  | .put m v b, k => .store (p m) v (bodyProc p b k)

/-- Goroutine `i`.  The event `(i, some v)` is shown when the body has given its result, `(i, none)` when a TryLock has failed. -/
def Client.proc (i : Nat) : Client V → Proc V (Nat × Option V)
  | .stop => .done
  | .txn t k => takeAll (fun held => .emit (i, none) (unlockAll (t.back held) ((k none).proc i))) t.takes [] id
      fun p => bodyProc p t.body fun v => .emit (i, some v) (unlockAll t.unlocks ((k (some v)).proc i))

/-- main starts the goroutines. -/
def program (f : Nat → V) (cs : List (Client V)) : Config V (Nat × Option V) := start f (goAll (cs.mapIdx Client.proc) .done)

/-! ### Specification -/

/-- The Mutex is taken by some transaction of the goroutine. -/
def Client.Mentions (m : Nat) : Client V → Prop
  | .stop => False
  | .txn t k => m ∈ t.locks ∨ ∃ v, (k v).Mentions m

/-- Goroutine `i` takes the Mutex at some time. -/
def Mentioned (cs : List (Client V)) (i m : Nat) : Prop := ∃ c, cs[i]? = some c ∧ c.Mentions m

/-- Goroutines whose transactions are executed at one stroke, or given up without any effect, in the order of the trace.  Only a
transaction with a TryLock is given up, and only when another goroutine uses the Mutex. -/
inductive Serial : List (Client V) → (Nat → V) → List (Nat × Option V) → List (Client V) → (Nat → V) → Prop
  | nil (cs : List (Client V)) (f : Nat → V) : Serial cs f [] cs f
  | step {cs cs' : List (Client V)} {f f' : Nat → V} {tr : List (Nat × Option V)} {i : Nat} {t : Txn V} {k : Option V → Client V}
      (h : Serial cs f tr cs' f') (hi : cs'[i]? = some (.txn t k)) :
      Serial cs f (tr ++ [(i, some (t.body.run f').1)]) (cs'.set i (k (some (t.body.run f').1))) (t.body.run f').2
  | giveUp {cs cs' : List (Client V)} {f f' : Nat → V} {tr : List (Nat × Option V)} {i : Nat} {t : Txn V} {k : Option V → Client V}
      (h : Serial cs f tr cs' f') (hi : cs'[i]? = some (.txn t k)) 
      (ht : ∃ x ∈ t.takes, x.waits = false ∧ ∃ j, j ≠ i ∧ Mentioned cs j x.m) :
      Serial cs f (tr ++ [(i, none)]) (cs'.set i (k none)) f'

/-- A transaction uses the Mutexes it has taken, none of them twice, and unlocks all of them, also when it is given up. -/
structure Txn.Ok (t : Txn V) : Prop where
  nodup : t.locks.Nodup
  within : t.body.Within t.locks
  unlocks : t.unlocks.Perm t.locks
  back : ∀ ms, ms <+: t.locks → (t.back ms).Perm ms

/-- All transactions of a goroutine satisfy `P`. -/
def Client.All (P : Txn V → Prop) : Client V → Prop
  | .stop => True
  | .txn t k => P t ∧ ∀ v, (k v).All P

/-- A Mutex taken by Lock has a greater rank than those taken before it, be it by Lock or by TryLock. -/
def Txn.Ordered (rank : Nat → Nat) (t : Txn V) : Prop :=
  ∀ pre m post, t.takes = pre ++ ⟨true, m⟩ :: post → ∀ x ∈ pre, rank x.m < rank m

/-! ### States of a goroutine -/

/-- What a goroutine is about to do. -/
inductive CSt (V : Type) where
  | over
  | taking (pre : List Take) (x : Take) (rest : List Take) (t : Txn V) (k : Option V → Client V)
  | losing (pre : List Take) (t : Txn V) (k : Option V → Client V)
  | body (t : Txn V) (b : Body V) (k : Option V → Client V)
  | unlocking (u : Nat) (us : List Nat) (c : Client V)

def takeFrom (pre : List Take) : List Take → Txn V → (Option V → Client V) → CSt V
  | [], t, k => .body t t.body k
  | x :: rest, t, k => .taking pre x rest t k
def startAt : Client V → CSt V
  | .stop => .over
  | .txn t k => takeFrom [] t.takes t k
def unlockFrom : List Nat → Client V → CSt V
  | [], c => startAt c
  | u :: us, c => .unlocking u us c

def after (i : Nat) (t : Txn V) (k : Option V → Client V) (v : V) : Proc V (Nat × Option V) :=
  .emit (i, some v) (unlockAll t.unlocks ((k (some v)).proc i))
def lost (i : Nat) (t : Txn V) (k : Option V → Client V) (held : List Nat) : Proc V (Nat × Option V) :=
  .emit (i, none) (unlockAll (t.back held) ((k none).proc i))

def CSt.proc (i : Nat) : CSt V → Proc V (Nat × Option V)
  | .over => .done
  | .taking pre x rest t k => takeAll (lost i t k) (x :: rest) (pre.map Take.m) id fun p => bodyProc p t.body (after i t k)
  | .losing pre t k => lost i t k (pre.map Take.m)
  | .body t b k => bodyProc id b (after i t k)
  | .unlocking u us c => unlockAll (u :: us) (c.proc i)

def CSt.held : CSt V → List Nat
  | .over => []
  | .taking pre _ _ _ _ => pre.map Take.m
  | .losing pre _ _ => pre.map Take.m
  | .body t _ _ => t.locks
  | .unlocking u us _ => u :: us

/-- What a goroutine has still to do, at one stroke. -/
def CSt.left : CSt V → Client V
  | .over => .stop
  | .taking _ _ _ t k => .txn t k
  | .losing _ t k => .txn t k
  | .body t _ k => .txn t k
  | .unlocking _ _ c => c

theorem takeAll_wait (l : List Nat → Proc V (Nat × Option V)) (m : Nat) (ts : List Take) (held : List Nat)
    (k : (Nat → Nat) → Proc V (Nat × Option V)) :
    takeAll l (⟨true, m⟩ :: ts) held id k = .lock m (takeAll l ts (held ++ [m]) id k) := by
  simp only [takeAll, Mutex.lock_, mutex, Mutex.new, upd_id]
theorem takeAll_try (l : List Nat → Proc V (Nat × Option V)) (m : Nat) (ts : List Take) (held : List Nat)
    (k : (Nat → Nat) → Proc V (Nat × Option V)) :
    takeAll l (⟨false, m⟩ :: ts) held id k = .tryLock m fun ok => if ok then takeAll l ts (held ++ [m]) id k else l held := by
  simp only [takeAll, Mutex.tryLock, mutex, Mutex.new, upd_id]

theorem takeFrom_proc (i : Nat) (pre rest : List Take) (t : Txn V) (k : Option V → Client V) :
    (takeFrom pre rest t k).proc i = takeAll (lost i t k) rest (pre.map Take.m) id fun p => bodyProc p t.body (after i t k) := by
  cases rest <;> rfl
theorem startAt_proc (i : Nat) (c : Client V) : (startAt c).proc i = c.proc i := by
  cases c with
  | stop => rfl
  | txn t k => exact takeFrom_proc i [] t.takes t k
theorem unlockFrom_proc (i : Nat) (us : List Nat) (c : Client V) : (unlockFrom us c).proc i = unlockAll us (c.proc i) := by
  cases us with
  | nil => exact startAt_proc i c
  | cons u us => rfl
theorem takeFrom_left (pre rest : List Take) (t : Txn V) (k : Option V → Client V) : (takeFrom pre rest t k).left = .txn t k := by
  cases rest <;> rfl
theorem startAt_left (c : Client V) : (startAt c).left = c := by
  cases c with
  | stop => rfl
  | txn t k => exact takeFrom_left ..
theorem unlockFrom_left (us : List Nat) (c : Client V) : (unlockFrom us c).left = c := by
  cases us with
  | nil => exact startAt_left c
  | cons u us => rfl
theorem takeFrom_held {pre rest : List Take} {t : Txn V} (h : pre ++ rest = t.takes) (k : Option V → Client V) :
    (takeFrom pre rest t k).held = pre.map Take.m := by
  cases rest with
  | nil => simp only [takeFrom, CSt.held, Txn.locks, ← h, List.append_nil]
  | cons m rest => rfl
theorem startAt_held (c : Client V) : (startAt c).held = [] := by
  cases c with
  | stop => rfl
  | txn t k => exact takeFrom_held rfl k
theorem unlockFrom_held (us : List Nat) (c : Client V) : (unlockFrom us c).held = us := by
  cases us with
  | nil => exact startAt_held c
  | cons u us => rfl

/-- What is known about a single goroutine. -/
def CSt.Ok (cs0 : List (Client V)) (P : Txn V → Prop) (i : Nat) : CSt V → Prop
  | .over => True
  | .taking pre x rest t k => pre ++ x :: rest = t.takes ∧ P t ∧ ∀ v, (k v).All P
  | .losing pre t k => (∃ x rest, x.waits = false ∧ (∃ j, j ≠ i ∧ Mentioned cs0 j x.m) ∧ pre ++ x :: rest = t.takes) ∧ P t ∧
      ∀ v, (k v).All P
  | .body t b k => b.Within t.locks ∧ P t ∧ ∀ v, (k v).All P
  | .unlocking u us c => (u :: us).Nodup ∧ c.All P ∧ ∀ m ∈ u :: us, Mentioned cs0 i m

/-- What is assumed of the transactions of goroutine `i`. -/
structure Good (cs0 : List (Client V)) (P : Nat → Txn V → Prop) : Prop where
  ok : ∀ i t, P i t → t.Ok
  ment : ∀ i t, P i t → ∀ m ∈ t.locks, Mentioned cs0 i m

section
variable {cs0 : List (Client V)} {P : Nat → Txn V → Prop} (hP : Good cs0 P) {i : Nat}
include hP
theorem takeFrom_ok {pre rest : List Take} {t : Txn V} {k : Option V → Client V}
    (h : pre ++ rest = t.takes) (ht : P i t) (hk : ∀ v, (k v).All (P i)) : (takeFrom pre rest t k).Ok cs0 (P i) i := by
  cases rest with
  | nil => exact ⟨(hP.ok i t ht).within, ht, hk⟩
  | cons m rest => exact ⟨h, ht, hk⟩
theorem startAt_ok {c : Client V} (h : c.All (P i)) : (startAt c).Ok cs0 (P i) i := by
  cases c with
  | stop => trivial
  | txn t k => exact takeFrom_ok hP rfl h.1 h.2
theorem unlockFrom_ok {us : List Nat} {c : Client V} (h : c.All (P i)) (hu : us.Nodup) (hm : ∀ m ∈ us, Mentioned cs0 i m) :
    (unlockFrom us c).Ok cs0 (P i) i := by
  cases us with
  | nil => exact startAt_ok hP h
  | cons u us => exact ⟨hu, h, hm⟩
end

/-- A goroutine that begins a transaction without Mutexes. -/
theorem unlockFrom_body {us : List Nat} {c : Client V} {Q : Txn V → Prop} (hc : c.All Q) {t : Txn V} {b : Body V}
    {k : Option V → Client V} (h : unlockFrom us c = .body t b k) : t.locks = [] ∧ b = t.body ∧ Q t := by
  cases us with
  | cons a r => cases h
  | nil =>
    cases c with
    | stop => cases h
    | txn t1 k1 =>
      have e' : takeFrom [] t1.takes t1 k1 = .body t b k := h
      cases hl : t1.takes with
      | nil =>
        rw [hl] at e'
        cases e'
        exact ⟨by rw [Txn.locks, hl]; rfl, rfl, hc.1⟩
      | cons a r => rw [hl] at e'; cases e'

/-! ### The invariant -/

/-- A goroutine that is executing a body and holds `m`. -/
def CSt.Uses (m : Nat) : CSt V → Prop
  | .body t _ _ => m ∈ t.locks
  | _ => False

structure Inv (P : Nat → Txn V → Prop) (f0 : Nat → V) (cs0 : List (Client V)) (cl : List (CSt V)) (n : Nat) (com : Nat → V)
    (s : Config V (Nat × Option V)) (tr : List (Nat × Option V)) : Prop where
  procs : s.procs = goAll ((cl.mapIdx CSt.proc).drop n) .done :: (cl.mapIdx CSt.proc).take n
  alive : s.crashed = false
  chans : s.chans = []
  locks : ∀ m, s.locks m = true ↔ ∃ (j : Nat) (c : CSt V), cl[j]? = some c ∧ m ∈ c.held
  unique : ∀ (i j : Nat) (c d : CSt V) (m : Nat), cl[i]? = some c → cl[j]? = some d → m ∈ c.held → m ∈ d.held → i = j
  ok : ∀ (i : Nat) (c : CSt V), cl[i]? = some c → c.Ok cs0 (P i) i
  mem : ∀ m, (∀ (j : Nat) (c : CSt V), cl[j]? = some c → ¬ c.Uses m) → s.vars m = com m
  bodies : ∀ (j : Nat) (t : Txn V) (b : Body V) (k : Option V → Client V), cl[j]? = some (.body t b k) →
    (b.run s.vars).1 = (t.body.run com).1 ∧ ∀ m ∈ t.locks, (b.run s.vars).2 m = (t.body.run com).2 m
  serial : Serial cs0 f0 tr (cl.map CSt.left) com

theorem get_set {cl : List (CSt V)} {i j : Nat} {c' d : CSt V} (h : (cl.set i c')[j]? = some d) :
    (j = i ∧ d = c') ∨ (j ≠ i ∧ cl[j]? = some d) := by
  by_cases e : j = i
  · subst e
    rw [List.getElem?_set_self'] at h
    cases hc : cl[j]? with
    | none => rw [hc] at h; cases h
    | some c => rw [hc] at h; cases h; exact .inl ⟨rfl, rfl⟩
  · rw [List.getElem?_set_ne (Ne.symm e)] at h
    exact .inr ⟨e, h⟩

theorem set_get {cl : List (CSt V)} {i : Nat} {c c' : CSt V} (h : cl[i]? = some c) : (cl.set i c')[i]? = some c' := by
  rw [List.getElem?_set_self', h]; rfl

theorem set_left {cl : List (CSt V)} {i : Nat} {c c' : CSt V} (h : cl[i]? = some c) (e : c'.left = c.left) :
    (cl.set i c').map CSt.left = cl.map CSt.left := by
  apply List.ext_getElem?
  intro j
  rw [List.getElem?_map, List.getElem?_map]
  by_cases hj : j = i
  · subst hj; rw [set_get h, h]; simp only [Option.map_some, e]
  · rw [List.getElem?_set_ne (Ne.symm hj)]

theorem mapIdx_set (g : Nat → CSt V → Proc V (Nat × Option V)) (cl : List (CSt V)) (i : Nat) (c : CSt V) :
    (cl.set i c).mapIdx g = (cl.mapIdx g).set i (g i c) := by
  apply List.ext_getElem?
  intro j
  rw [List.getElem?_mapIdx]
  by_cases hj : j = i
  · subst hj
    rw [List.getElem?_set_self', List.getElem?_set_self', List.getElem?_mapIdx]
    cases cl[j]? <;> rfl
  · rw [List.getElem?_set_ne (Ne.symm hj), List.getElem?_set_ne (Ne.symm hj), List.getElem?_mapIdx]

section
variable {P : Nat → Txn V → Prop} {f0 : Nat → V} {cs0 : List (Client V)} {cl : List (CSt V)} {n : Nat} {com : Nat → V} {s s' : Config V (Nat × Option V)}
  {tr : List (Nat × Option V)}

/-- Who executes an instruction: nobody, main, or a goroutine that has been started. -/
theorem Inv.who (h : Inv P f0 cs0 cl n com s tr) {i : Nat} {p : Proc V (Nat × Option V)} (hp : s.procs[i]? = some p) :
    (i = 0 ∧ p = goAll ((cl.mapIdx CSt.proc).drop n) .done) ∨
    ∃ j c, i = j + 1 ∧ j < n ∧ cl[j]? = some c ∧ p = c.proc j := by
  rw [h.procs] at hp
  cases i with
  | zero => exact .inl ⟨rfl, by simpa using hp.symm⟩
  | succ j =>
    rw [List.getElem?_cons_succ, List.getElem?_take] at hp
    by_cases hj : j < n
    · rw [if_pos hj, List.getElem?_mapIdx] at hp
      cases hc : cl[j]? with
      | none => rw [hc] at hp; cases hp
      | some c => rw [hc] at hp; cases hp; exact .inr ⟨j, c, rfl, hj, by first | exact hc | rfl, rfl⟩
    · rw [if_neg hj] at hp; cases hp

/-- The processes after goroutine `i` has moved. -/
theorem Inv.procs_set (h : Inv P f0 cs0 cl n com s tr) {i : Nat} (hi : i < n) (c' : CSt V) :
    s.procs.set (i + 1) (c'.proc i) =
      goAll (((cl.set i c').mapIdx CSt.proc).drop n) .done :: ((cl.set i c').mapIdx CSt.proc).take n := by
  rw [h.procs, mapIdx_set, List.drop_set_of_lt hi, List.set_cons_succ, List.take_set]

/-- A move of goroutine `i`. -/
theorem Inv.moved (h : Inv P f0 cs0 cl n com s tr) {i : Nat} {c c' : CSt V} {com' : Nat → V} {tr' : List (Nat × Option V)} (hi : i < n)
    (hc : cl[i]? = some c) (hp : s'.procs = s.procs.set (i + 1) (c'.proc i)) (ha : s'.crashed = false) (hch : s'.chans = [])
    (hl : ∀ m, s'.locks m = true ↔ m ∈ c'.held ∨ ∃ (j : Nat) (d : CSt V), j ≠ i ∧ cl[j]? = some d ∧ m ∈ d.held)
    (hu : ∀ m ∈ c'.held, ∀ (j : Nat) (d : CSt V), j ≠ i → cl[j]? = some d → m ∉ d.held) (hok : c'.Ok cs0 (P i) i)
    (hm : ∀ m, ¬ c'.Uses m → (∀ (j : Nat) (d : CSt V), j ≠ i → cl[j]? = some d → ¬ d.Uses m) → s'.vars m = com' m)
    (hb : ∀ (t : Txn V) (b : Body V) (k : Option V → Client V), c' = .body t b k →
      (b.run s'.vars).1 = (t.body.run com').1 ∧ ∀ m ∈ t.locks, (b.run s'.vars).2 m = (t.body.run com').2 m)
    (hb' : ∀ (j : Nat) (t : Txn V) (b : Body V) (k : Option V → Client V), j ≠ i → cl[j]? = some (.body t b k) →
      (b.run s'.vars).1 = (t.body.run com').1 ∧ ∀ m ∈ t.locks, (b.run s'.vars).2 m = (t.body.run com').2 m)
    (hs : Serial cs0 f0 tr' ((cl.set i c').map CSt.left) com') : Inv P f0 cs0 (cl.set i c') n com' s' tr' where
  procs := hp.trans (h.procs_set hi _)
  alive := ha
  chans := hch
  locks := fun m => by
    rw [hl]
    constructor
    · rintro (hx | ⟨j, d, hj, hd, hx⟩)
      · exact ⟨i, c', set_get hc, hx⟩
      · exact ⟨j, d, by rw [List.getElem?_set_ne (Ne.symm hj)]; exact hd, hx⟩
    · rintro ⟨j, d, hj, hx⟩
      rcases get_set hj with ⟨_, e⟩ | ⟨hne, hd⟩
      · subst e; exact .inl hx
      · exact .inr ⟨j, d, hne, hd, hx⟩
  unique := fun j1 j2 d1 d2 m h1 h2 hm1 hm2 => by
    rcases get_set h1 with ⟨e1, e1'⟩ | ⟨n1, h1'⟩
    · rcases get_set h2 with ⟨e2, e2'⟩ | ⟨n2, h2'⟩
      · rw [e1, e2]
      · subst e1'; exact absurd hm2 (hu m hm1 j2 d2 n2 h2')
    · rcases get_set h2 with ⟨e2, e2'⟩ | ⟨n2, h2'⟩
      · subst e2'; exact absurd hm1 (hu m hm2 j1 d1 n1 h1')
      · exact h.unique _ _ d1 d2 m h1' h2' hm1 hm2
  ok := fun j d hj => by
    rcases get_set hj with ⟨rfl, rfl⟩ | ⟨_, hd⟩
    · exact hok
    · exact h.ok j d hd
  mem := fun m hno => hm m (hno i c' (set_get hc)) fun j d hj hd =>
    hno j d (by rw [List.getElem?_set_ne (Ne.symm hj)]; exact hd)
  bodies := fun j t b k hj => by
    rcases get_set hj with ⟨_, e⟩ | ⟨hne, hd⟩
    · exact hb t b k e.symm
    · exact hb' j t b k hne hd
  serial := hs

/-- Goroutine `i` alone holds what it holds. -/
theorem Inv.own (h : Inv P f0 cs0 cl n com s tr) {i : Nat} {c : CSt V} (hc : cl[i]? = some c) {m : Nat} (hm : m ∈ c.held) (j : Nat)
    (d : CSt V) (hj : j ≠ i) (hd : cl[j]? = some d) : m ∉ d.held :=
  fun hm' => hj (h.unique j i d c m hd hc hm' hm)

theorem Inv.locks_iff (h : Inv P f0 cs0 cl n com s tr) {i : Nat} {c : CSt V} (hc : cl[i]? = some c) (m : Nat) :
    s.locks m = true ↔ m ∈ c.held ∨ ∃ (j : Nat) (d : CSt V), j ≠ i ∧ cl[j]? = some d ∧ m ∈ d.held := by
  rw [h.locks]
  constructor
  · rintro ⟨j, d, hj, hm⟩
    by_cases e : j = i
    · subst e; rw [hc] at hj; cases hj; exact .inl hm
    · exact .inr ⟨j, d, e, hj, hm⟩
  · rintro (hm | ⟨j, d, _, hj, hm⟩)
    · exact ⟨i, c, hc, hm⟩
    · exact ⟨j, d, hj, hm⟩

theorem CSt.Uses.held {m : Nat} {c : CSt V} (h : c.Uses m) : m ∈ c.held := by
  cases c with
  | body t b k => exact h
  | _ => cases h

theorem Inv.load (h : Inv P f0 cs0 cl n com s tr) {i m : Nat} {t : Txn V} {b : V → Body V} {k : Option V → Client V} (hi : i < n)
    (hc : cl[i]? = some (.body t (.get m b) k)) :
    Inv P f0 cs0 (cl.set i (.body t (b (s.vars m)) k)) n com (s.to (i + 1) ((CSt.body t (b (s.vars m)) k).proc i)) tr := by
  have ok := h.ok _ _ hc
  have hl := h.locks_iff hc
  refine h.moved hi hc rfl h.alive h.chans hl (fun m hm => h.own hc (show m ∈ t.locks from hm)) ⟨ok.1.2 _, ok.2⟩ ?_ ?_ ?_ ?_
  · intro m' hu hno
    refine h.mem m' fun j d hd => ?_
    by_cases e : j = i
    · subst e; rw [hc] at hd; cases hd; exact hu
    · exact hno j d e hd
  · intro t' b' k' e
    cases e
    have := h.bodies _ _ _ _ hc
    exact this
  · intro j t' b' k' _ hd
    exact h.bodies _ _ _ _ hd
  · rw [set_left hc (c' := .body t (b (s.vars m)) k) rfl]; exact h.serial

theorem Inv.store (h : Inv P f0 cs0 cl n com s tr) {i m : Nat} {v : V} {t : Txn V} {b : Body V} {k : Option V → Client V} (hi : i < n)
    (hc : cl[i]? = some (.body t (.put m v b) k)) :
    Inv P f0 cs0 (cl.set i (.body t b k)) n com { s.to (i + 1) ((CSt.body t b k).proc i) with vars := upd s.vars m v } tr := by
  have ok := h.ok _ _ hc
  have hl := h.locks_iff hc
  refine h.moved hi hc rfl h.alive h.chans hl (fun m hm => h.own hc (show m ∈ t.locks from hm)) ⟨ok.1.2, ok.2⟩ ?_ ?_ ?_ ?_
  · intro m' hu hno
    have hne : m' ≠ m := fun e => hu (e ▸ ok.1.1)
    show upd s.vars m v m' = _
    rw [upd, if_neg hne]
    refine h.mem m' fun j d hd => ?_
    by_cases e : j = i
    · subst e; rw [hc] at hd; cases hd; exact hu
    · exact hno j d e hd
  · intro t' b' k' e
    cases e
    have := h.bodies _ _ _ _ hc
    exact this
  · intro j t' b' k' hj hd
    obtain ⟨e1, e2⟩ := h.bodies _ _ _ _ hd
    have hno : m ∉ t'.locks := h.own hc (show m ∈ t.locks from ok.1.1) j _ hj hd
    obtain ⟨f1, f2⟩ := b'.run_congr (upd s.vars m v) s.vars (h.ok _ _ hd).1 (fun x hx => by
      have : x ≠ m := fun e => hno (e ▸ hx)
      rw [upd, if_neg this])
    exact ⟨f1.trans e1, fun x hx => (f2 x hx).trans (e2 x hx)⟩
  · rw [set_left hc (c' := .body t b k) rfl]; exact h.serial

theorem Inv.take (hP : Good cs0 P) (h : Inv P f0 cs0 cl n com s tr) {i : Nat} {pre rest : List Take} {x : Take} {t : Txn V}
    {k : Option V → Client V} (hi : i < n) (hc : cl[i]? = some (.taking pre x rest t k)) (hf : s.locks x.m = false) :
    Inv P f0 cs0 (cl.set i (takeFrom (pre ++ [x]) rest t k)) n com
      { s.to (i + 1) ((takeFrom (pre ++ [x]) rest t k).proc i) with locks := upd s.locks x.m true } tr := by
  obtain ⟨hlk, ht, hk⟩ := h.ok _ _ hc
  have hlk' : (pre ++ [x]) ++ rest = t.takes := by rw [← hlk]; simp
  have hh := takeFrom_held hlk' k
  rw [List.map_append] at hh
  have free : ∀ (j : Nat) (d : CSt V), cl[j]? = some d → x.m ∉ d.held := by
    intro j d hd hm
    have := (h.locks x.m).2 ⟨j, d, hd, hm⟩
    rw [hf] at this; cases this
  have own : ∀ m' ∈ pre.map Take.m ++ [x].map Take.m, ∀ (j : Nat) (d : CSt V), j ≠ i → cl[j]? = some d → m' ∉ d.held := by
    intro m' hm' j d hj hd
    rcases List.mem_append.1 hm' with hm' | hm'
    · exact h.own hc hm' j d hj hd
    · rw [List.map_cons, List.map_nil, List.mem_singleton] at hm'; subst hm'; exact free j d hd
  refine h.moved hi hc rfl h.alive h.chans ?_ (by rw [hh]; exact own) (takeFrom_ok hP hlk' ht hk) ?_ ?_ ?_ ?_
  · intro m'
    show upd s.locks x.m true m' = true ↔ _
    rw [hh, upd]
    by_cases e : m' = x.m
    · rw [if_pos e]; simp [e]
    · rw [if_neg e, h.locks_iff hc]
      simp [CSt.held, e]
  · intro m' _ hno
    refine h.mem m' fun j d hd => ?_
    by_cases e : j = i
    · subst e; rw [hc] at hd; cases hd; exact fun x => x
    · exact hno j d e hd
  · intro t' b' k' e
    have : rest = [] ∧ t' = t ∧ b' = t.body := by
      cases rest with
      | nil => cases e; exact ⟨rfl, rfl, rfl⟩
      | cons a r => cases e
    obtain ⟨rfl, rfl, rfl⟩ := this
    refine t'.body.run_congr (ms := t'.locks) _ _ (hP.ok _ _ ht).within fun m' hm' => ?_
    refine h.mem m' fun j d hd hu => ?_
    by_cases e : j = i
    · subst e; rw [hc] at hd; cases hd; exact hu
    · rw [List.append_nil] at hlk'
      refine own m' ?_ j d e hd hu.held
      rw [Txn.locks, ← hlk', List.map_append] at hm'
      exact hm'
  · intro j t' b' k' _ hd
    exact h.bodies _ _ _ _ hd
  · rw [set_left hc (takeFrom_left ..)]; exact h.serial

/-- A TryLock fails. -/
theorem Inv.fail (h : Inv P f0 cs0 cl n com s tr) {i : Nat} {pre rest : List Take} {x : Take} {t : Txn V}
    {k : Option V → Client V} (hi : i < n) (hc : cl[i]? = some (.taking pre x rest t k)) (hw : x.waits = false)
    (hj : ∃ j, j ≠ i ∧ Mentioned cs0 j x.m) :
    Inv P f0 cs0 (cl.set i (.losing pre t k)) n com (s.to (i + 1) ((CSt.losing pre t k).proc i)) tr := by
  obtain ⟨hlk, ht, hk⟩ := h.ok _ _ hc
  refine h.moved hi hc rfl h.alive h.chans (fun m => h.locks_iff hc m)
    (fun m hm => h.own hc (show m ∈ pre.map Take.m from hm)) ⟨⟨x, rest, hw, hj, hlk⟩, ht, hk⟩ ?_ ?_ ?_ ?_
  · intro m' _ hno
    refine h.mem m' fun j d hd => ?_
    by_cases e : j = i
    · subst e; rw [hc] at hd; cases hd; exact fun x => x
    · exact hno j d e hd
  · intro t' b' k' e; cases e
  · intro j t' b' k' _ hd
    exact h.bodies _ _ _ _ hd
  · rw [set_left hc (by rfl)]; exact h.serial

theorem prefix_locks {pre rest : List Take} {t : Txn V} (h : pre ++ rest = t.takes) : pre.map Take.m <+: t.locks :=
  ⟨rest.map Take.m, by rw [Txn.locks, ← h, List.map_append]⟩

/-- A transaction is given up. -/
theorem Inv.giveUp (hP : Good cs0 P) (h : Inv P f0 cs0 cl n com s tr) {i : Nat} {pre : List Take} {t : Txn V}
    {k : Option V → Client V} (hi : i < n) (hc : cl[i]? = some (.losing pre t k)) :
    Inv P f0 cs0 (cl.set i (unlockFrom (t.back (pre.map Take.m)) (k none))) n com
      (s.to (i + 1) ((unlockFrom (t.back (pre.map Take.m)) (k none)).proc i)) (tr ++ [(i, none)]) := by
  obtain ⟨⟨x, rest, hw, hj, hlk⟩, ht, hk⟩ := h.ok _ _ hc
  have hT := hP.ok i t ht
  have hpre := prefix_locks hlk
  have hb := hT.back _ hpre
  have hh := unlockFrom_held (t.back (pre.map Take.m)) (k none)
  refine h.moved hi hc rfl h.alive h.chans ?_ ?_ (unlockFrom_ok hP (hk none) (hb.nodup_iff.2 (hpre.sublist.nodup hT.nodup))
    fun m hm => hP.ment i t ht m (hpre.subset (hb.mem_iff.1 hm))) ?_ ?_ ?_ ?_
  · intro m'
    show s.locks m' = true ↔ _
    rw [hh, h.locks_iff hc, hb.mem_iff]
    rfl
  · rw [hh]
    exact fun m hm => h.own hc (show m ∈ pre.map Take.m from hb.mem_iff.1 hm)
  · intro m' _ hno
    refine h.mem m' fun j d hd => ?_
    by_cases e : j = i
    · subst e; rw [hc] at hd; cases hd; exact fun x => x
    · exact hno j d e hd
  · intro t' b' k' e
    obtain ⟨h1, rfl, h3⟩ := unlockFrom_body (hk none) e
    refine t'.body.run_congr (ms := t'.locks) _ _ (hP.ok _ _ h3).within fun m' hm' => ?_
    rw [h1] at hm'; cases hm'
  · intro j t' b' k' _ hd
    exact h.bodies _ _ _ _ hd
  · have hl : (cl.map CSt.left)[i]? = some (.txn t k) := by rw [List.getElem?_map, hc]; rfl
    have := Serial.giveUp h.serial hl ⟨x, by rw [← hlk]; simp, hw, hj⟩
    rw [List.map_set, unlockFrom_left]
    exact this

theorem Inv.unlock (hP : Good cs0 P) (h : Inv P f0 cs0 cl n com s tr) {i u : Nat} {us : List Nat} {c : Client V} (hi : i < n)
    (hc : cl[i]? = some (.unlocking u us c)) :
    Inv P f0 cs0 (cl.set i (unlockFrom us c)) n com
      { s.to (i + 1) ((unlockFrom us c).proc i) with locks := upd s.locks u false } tr := by
  obtain ⟨hnd, hall, hment⟩ := h.ok _ _ hc
  rw [List.nodup_cons] at hnd
  have hh := unlockFrom_held us c
  have own : ∀ m' ∈ u :: us, ∀ (j : Nat) (d : CSt V), j ≠ i → cl[j]? = some d → m' ∉ d.held := fun m' hm' => h.own hc hm'
  refine h.moved hi hc rfl h.alive h.chans ?_ (by rw [hh]; exact fun m hm => own m (List.mem_cons_of_mem _ hm))
    (unlockFrom_ok hP hall hnd.2 fun m hm => hment m (List.mem_cons_of_mem _ hm)) ?_ ?_ ?_ ?_
  · intro m'
    show upd s.locks u false m' = true ↔ _
    rw [hh, upd]
    by_cases e : m' = u
    · subst e
      rw [if_pos rfl]
      constructor
      · intro h; cases h
      · rintro (hm | ⟨j, d, hj, hd, hm⟩)
        · exact absurd hm hnd.1
        · exact absurd hm (own m' (List.mem_cons_self ..) j d hj hd)
    · rw [if_neg e, h.locks_iff hc]
      simp [CSt.held, e]
  · intro m' _ hno
    refine h.mem m' fun j d hd => ?_
    by_cases e : j = i
    · subst e; rw [hc] at hd; cases hd; exact fun x => x
    · exact hno j d e hd
  · intro t' b' k' e
    obtain ⟨h1, rfl, h3⟩ := unlockFrom_body hall e
    refine t'.body.run_congr (ms := t'.locks) _ _ (hP.ok _ _ h3).within fun m' hm' => ?_
    rw [h1] at hm'; cases hm'
  · intro j t' b' k' _ hd
    exact h.bodies _ _ _ _ hd
  · rw [set_left hc (unlockFrom_left us c)]; exact h.serial

theorem Inv.commit (hP : Good cs0 P) (h : Inv P f0 cs0 cl n com s tr) {i : Nat} {v : V} {t : Txn V} {k : Option V → Client V}
    (hi : i < n) (hc : cl[i]? = some (.body t (.ret v) k)) :
    Inv P f0 cs0 (cl.set i (unlockFrom t.unlocks (k (some v)))) n (t.body.run com).2
      (s.to (i + 1) ((unlockFrom t.unlocks (k (some v))).proc i)) (tr ++ [(i, some v)]) := by
  obtain ⟨_, ht, hk⟩ := h.ok _ _ hc
  have hT := hP.ok i t ht
  have hh := unlockFrom_held t.unlocks (k (some v))
  obtain ⟨e1, e2⟩ := h.bodies _ _ _ _ hc
  have e1' : v = (t.body.run com).1 := e1
  have own : ∀ m' ∈ t.locks, ∀ (j : Nat) (d : CSt V), j ≠ i → cl[j]? = some d → m' ∉ d.held := fun m' hm' => h.own hc hm'
  refine h.moved hi hc rfl h.alive h.chans ?_ (by rw [hh]; exact fun m hm => own m (hT.unlocks.mem_iff.1 hm))
    (unlockFrom_ok hP (hk _) (hT.unlocks.nodup_iff.2 hT.nodup) fun m hm => hP.ment i t ht m (hT.unlocks.mem_iff.1 hm)) ?_ ?_ ?_ ?_
  · intro m'
    show s.locks m' = true ↔ _
    rw [hh, h.locks_iff hc, hT.unlocks.mem_iff]
    rfl
  · intro m' _ hno
    show s.vars m' = _
    by_cases hm : m' ∈ t.locks
    · exact e2 m' hm
    · rw [t.body.run_frame hm com hT.within]
      refine h.mem m' fun j d hd => ?_
      by_cases e : j = i
      · subst e; rw [hc] at hd; cases hd; exact hm
      · exact hno j d e hd
  · intro t' b' k' e
    obtain ⟨h1, rfl, h3⟩ := unlockFrom_body (hk _) e
    refine t'.body.run_congr (ms := t'.locks) _ _ (hP.ok _ _ h3).within fun m' hm' => ?_
    rw [h1] at hm'; cases hm'
  · intro j t' b' k' hj hd
    obtain ⟨g1, g2⟩ := h.bodies _ _ _ _ hd
    have hok := h.ok _ _ hd
    obtain ⟨f1, f2⟩ := t'.body.run_congr (ms := t'.locks) (t.body.run com).2 com (hP.ok _ _ hok.2.1).within (fun x hx => by
      refine t.body.run_frame (fun hx' => ?_) com hT.within
      exact own x hx' j _ hj hd hx)
    exact ⟨g1.trans f1.symm, fun x hx => (g2 x hx).trans (f2 x hx).symm⟩
  · have hl : (cl.map CSt.left)[i]? = some (.txn t k) := by rw [List.getElem?_map, hc]; rfl
    have := Serial.step h.serial hl
    rw [← e1'] at this
    rw [List.map_set, unlockFrom_left]
    exact this

/-! ### Steps -/

/-- The moves of a goroutine. -/
inductive Next : CSt V → CSt V → Prop
  | take {pre x rest t k} : Next (takeFrom (pre ++ [x]) rest t k) (.taking pre x rest t k)
  | fail {pre x rest t k} : Next (.losing pre t k) (.taking pre x rest t k)
  | giveUp {pre t k} : Next (unlockFrom (t.back (pre.map Take.m)) (k none)) (.losing pre t k)
  | load {t m b k} (x : V) : Next (.body t (b x) k) (.body t (.get m b) k)
  | store {t m v b k} : Next (.body t b k) (.body t (.put m v b) k)
  | commit {t v k} : Next (unlockFrom t.unlocks (k (some v))) (.body t (.ret v) k)
  | unlock {u us c} : Next (unlockFrom us c) (.unlocking u us c)

/-- The moves of the program. -/
inductive Moves : List (CSt V) × Nat → List (CSt V) × Nat → Prop
  | main {l : List (CSt V)} {k : Nat} (h : k < l.length) : Moves (l, k + 1) (l, k)
  | client {l : List (CSt V)} {k i : Nat} {c c' : CSt V} (h : l[i]? = some c) (hn : Next c' c) : Moves (l.set i c', k) (l, k)

/-- The next instruction of a goroutine. -/
inductive Instr (j : Nat) : CSt V → Proc V (Nat × Option V) → Prop
  | over : Instr j .over .done
  | wait {pre m rest t k} : Instr j (.taking pre ⟨true, m⟩ rest t k) (.lock m ((takeFrom (pre ++ [⟨true, m⟩]) rest t k).proc j))
  | try {pre m rest t k} : Instr j (.taking pre ⟨false, m⟩ rest t k)
      (.tryLock m fun ok => if ok then (takeFrom (pre ++ [⟨false, m⟩]) rest t k).proc j else (CSt.losing pre t k).proc j)
  | giveUp {pre t k} : Instr j (.losing pre t k) (.emit (j, none) ((unlockFrom (t.back (pre.map Take.m)) (k none)).proc j))
  | load {t m b k} : Instr j (.body t (.get m b) k) (.load m fun x => (CSt.body t (b x) k).proc j)
  | store {t m v b k} : Instr j (.body t (.put m v b) k) (.store m v ((CSt.body t b k).proc j))
  | commit {t v k} : Instr j (.body t (.ret v) k) (.emit (j, some v) ((unlockFrom t.unlocks (k (some v))).proc j))
  | unlock {u us c} : Instr j (.unlocking u us c) (.unlock u ((unlockFrom us c).proc j))

theorem instr (j : Nat) (c : CSt V) : Instr j c (c.proc j) := by
  cases c with
  | over => exact .over
  | taking pre x rest t k =>
    obtain ⟨w, m⟩ := x
    cases w with
    | true =>
      have e : (CSt.taking pre ⟨true, m⟩ rest t k).proc j = .lock m ((takeFrom (pre ++ [⟨true, m⟩]) rest t k).proc j) := by
        rw [takeFrom_proc, List.map_append]
        exact takeAll_wait ..
      rw [e]
      exact .wait
    | false =>
      have e : (CSt.taking pre ⟨false, m⟩ rest t k).proc j = .tryLock m fun ok =>
          if ok then (takeFrom (pre ++ [⟨false, m⟩]) rest t k).proc j else (CSt.losing pre t k).proc j := by
        rw [takeFrom_proc, List.map_append]
        exact takeAll_try ..
      rw [e]
      exact .try
  | losing pre t k =>
    have e : (CSt.losing pre t k).proc j = .emit (j, none) ((unlockFrom (t.back (pre.map Take.m)) (k none)).proc j) := by
      rw [unlockFrom_proc]
      rfl
    rw [e]
    exact .giveUp
  | body t b k =>
    cases b with
    | ret v =>
      have e : (CSt.body t (.ret v) k).proc j = .emit (j, some v) ((unlockFrom t.unlocks (k (some v))).proc j) := by
        rw [unlockFrom_proc]
        rfl
      rw [e]
      exact .commit
    | get m b => exact .load
    | put m v b => exact .store
  | unlocking u us c =>
    have e : (CSt.unlocking u us c).proc j = .unlock u ((unlockFrom us c).proc j) := by
      rw [unlockFrom_proc]
      rfl
    rw [e]
    exact .unlock

theorem main_instr (cl : List (CSt V)) (n : Nat) :
    (cl.length ≤ n ∧ goAll ((cl.mapIdx CSt.proc).drop n) .done = .done) ∨
    ∃ c, n < cl.length ∧ cl[n]? = some c ∧
      goAll ((cl.mapIdx CSt.proc).drop n) .done = .go (c.proc n) (goAll ((cl.mapIdx CSt.proc).drop (n + 1)) .done) := by
  by_cases h : n < cl.length
  · refine .inr ⟨cl[n], h, List.getElem?_eq_getElem h, ?_⟩
    have h' : n < (cl.mapIdx CSt.proc).length := by simpa using h
    rw [List.drop_eq_getElem_cons h', List.getElem_mapIdx]
    rfl
  · have h' : cl.length ≤ n := Nat.le_of_not_lt h
    exact .inl ⟨h', by rw [List.drop_eq_nil_of_le (by simpa using h')]; rfl⟩

/-- main starts another goroutine. -/
theorem Inv.go (h : Inv P f0 cs0 cl n com s tr) {c : CSt V} (hc : cl[n]? = some c) :
    Inv P f0 cs0 cl (n + 1) com
      { s with procs := s.procs.set 0 (goAll ((cl.mapIdx CSt.proc).drop (n + 1)) .done) ++ [c.proc n] } tr where
  procs := by
    have e : (cl.mapIdx CSt.proc)[n]? = some (c.proc n) := by rw [List.getElem?_mapIdx, hc]; rfl
    rw [List.take_add_one, e, h.procs]
    rfl
  alive := h.alive
  chans := h.chans
  locks := h.locks
  unique := h.unique
  ok := h.ok
  mem := h.mem
  bodies := h.bodies
  serial := h.serial

theorem Inv.held_locked (h : Inv P f0 cs0 cl n com s tr) {i u : Nat} {us : List Nat} {c : Client V}
    (hc : cl[i]? = some (.unlocking u us c)) : s.locks u = true :=
  (h.locks u).2 ⟨i, _, hc, List.mem_cons_self ..⟩
/-- What a goroutine holds it takes in one of its transactions. -/
theorem Inv.mentioned (hP : Good cs0 P) (h : Inv P f0 cs0 cl n com s tr) {j m : Nat} {c : CSt V} (hc : cl[j]? = some c)
    (hm : m ∈ c.held) : Mentioned cs0 j m := by
  have ok := h.ok _ _ hc
  cases c with
  | over => cases hm
  | taking pre x rest t k => exact hP.ment j t ok.2.1 m ((prefix_locks ok.1).subset hm)
  | losing pre t k =>
    obtain ⟨⟨x, rest, _, _, hlk⟩, ht, _⟩ := ok
    exact hP.ment j t ht m ((prefix_locks hlk).subset hm)
  | body t b k => exact hP.ment j t ok.2.1 m hm
  | unlocking u us c => exact ok.2.2 m hm

theorem Inv.wanted (hP : Good cs0 P) (h : Inv P f0 cs0 cl n com s tr) {j : Nat} {pre rest : List Take} {x : Take} {t : Txn V}
    {k : Option V → Client V} (hc : cl[j]? = some (.taking pre x rest t k)) : Mentioned cs0 j x.m := by
  obtain ⟨hlk, ht, _⟩ := h.ok _ _ hc
  refine hP.ment j t ht _ ?_
  rw [Txn.locks, ← hlk]
  simp

/-- A Mutex that is not free for a TryLock is used by another goroutine. -/
theorem Inv.other (hP : Good cs0 P) (h : Inv P f0 cs0 cl n com s tr) {i : Nat} {pre rest : List Take} {x : Take} {t : Txn V}
    {k : Option V → Client V} (hc : cl[i]? = some (.taking pre x rest t k)) (hl : s.locks x.m = true) :
    ∃ j, j ≠ i ∧ Mentioned cs0 j x.m := by
  obtain ⟨j, d, hd, hm⟩ := (h.locks _).1 hl
  refine ⟨j, fun e => ?_, h.mentioned hP hd hm⟩
  subst e
  rw [hc] at hd
  cases hd
  obtain ⟨hlk, ht, _⟩ := h.ok _ _ hc
  have hn := (hP.ok _ _ ht).nodup
  rw [Txn.locks, ← hlk, List.map_append, List.map_cons, List.nodup_append] at hn
  exact hn.2.2 _ hm _ (List.mem_cons_self ..) rfl

theorem Inv.step (hP : Good cs0 P) (h : Inv P f0 cs0 cl n com s tr) {e : Option (Nat × Option V)} (st : Step s e s') :
    ∃ cl' n' com', Inv P f0 cs0 cl' n' com' s' (tr ++ e.toList) ∧ Moves (cl', n') (cl, n) := by
  have nochan : ∀ {c : Nat} {ch : Chan V}, s.chans[c]? = some ch → False := by
    intro c ch hc; rw [h.chans] at hc; simp at hc
  -- the instruction is main's or that of a goroutine
  have who : ∀ {i : Nat} {p : Proc V (Nat × Option V)}, s.procs[i]? = some p → p ≠ .done →
      (∃ c, i = 0 ∧ n < cl.length ∧ cl[n]? = some c ∧ p = .go (c.proc n) (goAll ((cl.mapIdx CSt.proc).drop (n + 1)) .done)) ∨
      ∃ j c, i = j + 1 ∧ j < n ∧ cl[j]? = some c ∧ Instr j c p := by
    intro i p hp hne
    rcases h.who hp with ⟨hi, e⟩ | ⟨j, c, hi, hj, hc, e⟩
    · rcases main_instr cl n with ⟨_, e'⟩ | ⟨c, h1, h2, e'⟩
      · exact absurd (e.trans e') hne
      · exact .inl ⟨c, hi, h1, h2, e.trans e'⟩
    · exact .inr ⟨j, c, hi, hj, hc, by rw [e]; exact instr j c⟩
  cases st with
  | emit hc hp =>
    rcases who hp (by intro e; cases e) with ⟨c, _, _, _, e⟩ | ⟨j, c, rfl, hj, hcl, hin⟩
    · cases e
    · cases hin with
      | commit => exact ⟨_, _, _, h.commit hP hj hcl, .client hcl .commit⟩
      | giveUp => exact ⟨_, _, _, h.giveUp hP hj hcl, .client hcl .giveUp⟩
  | go hc hp =>
    rcases who hp (by intro e; cases e) with ⟨c, rfl, hn, hcn, e⟩ | ⟨j, c, rfl, hj, hcl, hin⟩
    · cases e
      exact ⟨_, _, _, by simpa using h.go hcn, .main hn⟩
    · cases hin
  | lock hc hp hl =>
    rcases who hp (by intro e; cases e) with ⟨c, _, _, _, e⟩ | ⟨j, c, rfl, hj, hcl, hin⟩
    · cases e
    · cases hin with
      | wait => exact ⟨_, _, _, by simpa using h.take hP hj hcl hl, .client hcl .take⟩
  | tryLock hc hp hl =>
    rcases who hp (by intro e; cases e) with ⟨c, _, _, _, e⟩ | ⟨j, c, rfl, hj, hcl, hin⟩
    · cases e
    · cases hin with
      | «try» => exact ⟨_, _, _, by simpa using h.take hP hj hcl hl, .client hcl .take⟩
  | tryLockFails hc hp hl =>
    rcases who hp (by intro e; cases e) with ⟨c, _, _, _, e⟩ | ⟨j, c, rfl, hj, hcl, hin⟩
    · cases e
    · cases hin with
      | «try» =>
        suffices H : ∃ j', j' ≠ j ∧ Mentioned cs0 j' _ from ⟨_, _, _, by simpa using h.fail hj hcl rfl H, .client hcl .fail⟩
        rcases hl with hl | ⟨j', hne, hl⟩
        · exact h.other hP hcl hl
        · rcases hl with ⟨k', hp'⟩ | ⟨k', hp'⟩
          · rcases who hp' (by intro e; cases e) with ⟨c, _, _, _, e⟩ | ⟨j1, c1, rfl, hj1, hcl1, hin1⟩
            · cases e
            · cases hin1 with
              | wait =>
                have := h.wanted hP hcl1
                exact ⟨j1, fun e => hne (by rw [e]), this⟩
          · rcases who hp' (by intro e; cases e) with ⟨c, _, _, _, e⟩ | ⟨j1, c1, rfl, hj1, hcl1, hin1⟩
            · cases e
            · cases hin1 with
              | «try» => exact ⟨j1, fun e => hne (by rw [e]), h.wanted hP hcl1⟩
  | unlock hc hp hl =>
    rcases who hp (by intro e; cases e) with ⟨c, _, _, _, e⟩ | ⟨j, c, rfl, hj, hcl, hin⟩
    · cases e
    · cases hin with
      | unlock => exact ⟨_, _, _, by simpa using h.unlock hP hj hcl, .client hcl .unlock⟩
  | unlockFree hc hp hl =>
    rcases who hp (by intro e; cases e) with ⟨c, _, _, _, e⟩ | ⟨j, c, rfl, hj, hcl, hin⟩
    · cases e
    · cases hin with
      | unlock => rw [h.held_locked hcl] at hl; cases hl
  | load hc hp =>
    rcases who hp (by intro e; cases e) with ⟨c, _, _, _, e⟩ | ⟨j, c, rfl, hj, hcl, hin⟩
    · cases e
    · cases hin with
      | load => exact ⟨_, _, _, by simpa using h.load hj hcl, .client hcl (.load _)⟩
  | store hc hp =>
    rcases who hp (by intro e; cases e) with ⟨c, _, _, _, e⟩ | ⟨j, c, rfl, hj, hcl, hin⟩
    · cases e
    · cases hin with
      | store => exact ⟨_, _, _, by simpa using h.store hj hcl, .client hcl .store⟩
  | tau hc hp | make hc hp =>
    rcases who hp (by intro e; cases e) with ⟨c, _, _, _, e⟩ | ⟨j, c, rfl, hj, hcl, hin⟩
    · cases e
    · cases hin
  | park hc _ hch _ => exact (nochan hch).elim
  | sendBuf hc _ hch _ _ => exact (nochan hch).elim
  | sendClosed hc _ hch _ => exact (nochan hch).elim
  | meet hc _ _ hch _ _ => exact (nochan hch).elim
  | meetPoll hc _ _ hch _ _ => exact (nochan hch).elim
  | recvBuf hc _ hch _ => exact (nochan hch).elim
  | pollBuf hc _ hch _ => exact (nochan hch).elim
  | recvClosed hc _ hch _ _ => exact (nochan hch).elim
  | pollClosed hc _ hch _ _ => exact (nochan hch).elim
  | pollDefault hc _ hch _ _ _ => exact (nochan hch).elim
  | close hc _ hch _ => exact (nochan hch).elim
  | closeClosed hc _ hch _ => exact (nochan hch).elim
/-! ### No deadlock -/

theorem get_proc (h : Inv P f0 cs0 cl n com s tr) {j : Nat} {c : CSt V} (hj : j < n) (hc : cl[j]? = some c) :
    s.procs[j + 1]? = some (c.proc j) := by
  rw [h.procs, List.getElem?_cons_succ, List.getElem?_take, if_pos hj, List.getElem?_mapIdx, hc]
  rfl
/-- The rank of the Mutex a goroutine waits for. -/
def CSt.waits (rank : Nat → Nat) : CSt V → Nat
  | .taking _ x _ _ _ => rank x.m
  | _ => 0

theorem waits_le {rank : Nat → Nat} {cl : List (CSt V)} {j : Nat} {c : CSt V} (h : cl[j]? = some c) : c.waits rank ≤ (cl.map (CSt.waits rank)).sum := by
  induction cl generalizing j with
  | nil => simp at h
  | cons a l ih =>
    rw [List.map_cons, List.sum_cons]
    cases j with
    | zero => simp only [List.getElem?_cons_zero, Option.some.injEq] at h; subst h; omega
    | succ j => have := ih (j := j) (by simpa using h); omega
theorem Inv.stopped {rank : Nat → Nat} (hA : ∀ i t, P i t → t.Ordered rank) (h : Inv P f0 cs0 cl n com s tr) (hn : ∀ e s', ¬ Step s e s') :
    cl.length ≤ n ∧ ∀ (j : Nat) (c : CSt V), cl[j]? = some c → c = .over := by
  have hlen : cl.length ≤ n := by
    rcases main_instr cl n with ⟨hl, _⟩ | ⟨c, h1, h2, e⟩
    · exact hl
    · exact absurd (Step.go h.alive (i := 0) (by rw [h.procs, e]; rfl)) (hn _ _)
  have lt : ∀ {j : Nat} {c : CSt V}, cl[j]? = some c → j < n := by
    intro j c hc
    have := (List.getElem?_eq_some_iff.1 hc).1
    omega
  -- who is not over waits for a Mutex that is locked
  have wait : ∀ {j : Nat} {c : CSt V}, cl[j]? = some c → c = .over ∨
      ∃ pre m rest t k, c = .taking pre ⟨true, m⟩ rest t k ∧ s.locks m = true := by
    intro j c hc
    have hp := get_proc h (lt hc) hc
    have hi := instr j c
    revert hp
    generalize c.proc j = p at hi
    intro hp
    cases hi with
    | over => exact .inl rfl
    | @wait pre m rest t k =>
      refine .inr ⟨pre, m, rest, t, k, rfl, ?_⟩
      cases hl : s.locks m with
      | true => rfl
      | false => exact absurd (Step.lock h.alive hp hl) (hn _ _)
    | @«try» pre m rest t k =>
      exfalso
      cases hl : s.locks m with
      | true => exact hn _ _ (Step.tryLockFails h.alive hp (.inl hl))
      | false => exact hn _ _ (Step.tryLock h.alive hp hl)
    | giveUp => exact absurd (Step.emit h.alive hp) (hn _ _)
    | load => exact absurd (Step.load h.alive hp) (hn _ _)
    | store => exact absurd (Step.store h.alive hp) (hn _ _)
    | commit => exact absurd (Step.emit h.alive hp) (hn _ _)
    | unlock => exact absurd (Step.unlock h.alive hp (h.held_locked hc)) (hn _ _)
  -- the holder of that Mutex waits for a greater one
  have up : ∀ {j : Nat} {pre rest : List Take} {m : Nat} {t : Txn V} {k : Option V → Client V},
      cl[j]? = some (.taking pre ⟨true, m⟩ rest t k) → ∃ (j' : Nat) (pre' : List Take) (m' : Nat) (rest' : List Take) (t' : Txn V)
        (k' : Option V → Client V), cl[j']? = some (.taking pre' ⟨true, m'⟩ rest' t' k') ∧ rank m < rank m' := by
    intro j pre rest m t k hc
    rcases wait hc with e | ⟨_, _, _, _, _, e, hl⟩
    · cases e
    · cases e
      obtain ⟨j', c', hc', hm⟩ := (h.locks m).1 hl
      rcases wait hc' with e | ⟨pre', m', rest', t', k', e, _⟩
      · subst e; cases hm
      · subst e
        obtain ⟨h1, h2, _⟩ := h.ok _ _ hc'
        obtain ⟨x, hx, rfl⟩ := List.mem_map.1 hm
        exact ⟨j', pre', m', rest', t', k', hc', hA _ _ h2 pre' m' rest' h1.symm x hx⟩
  have climb : ∀ (d : Nat) {j : Nat} {pre rest : List Take} {m : Nat} {t : Txn V} {k : Option V → Client V},
      cl[j]? = some (.taking pre ⟨true, m⟩ rest t k) → (cl.map (CSt.waits rank)).sum - rank m ≤ d → False := by
    intro d
    induction d with
    | zero =>
      intro j pre rest m t k hc hd
      obtain ⟨j', pre', m', rest', t', k', hc', hlt⟩ := up hc
      have := waits_le (rank := rank) hc'
      simp only [CSt.waits] at this
      omega
    | succ d ih =>
      intro j pre rest m t k hc hd
      obtain ⟨j', pre', m', rest', t', k', hc', hlt⟩ := up hc
      have := waits_le (rank := rank) hc'
      simp only [CSt.waits] at this
      exact ih hc' (by omega)
  refine ⟨hlen, fun j c hc => ?_⟩
  rcases wait hc with e | ⟨pre, m, rest, t, k, e, _⟩
  · exact e
  · subst e; exact (climb _ hc (Nat.le_refl _)).elim
end

/-! ### Termination -/

theorem next_acc : ∀ c : Client V, Acc Next (startAt c) := by
  have unl : ∀ (us : List Nat) (c : Client V), Acc Next (startAt c) → Acc Next (unlockFrom us c) := by
    intro us c hc
    induction us with
    | nil => exact hc
    | cons u us ih => exact ⟨_, fun y hy => by cases hy; exact ih⟩
  have bod : ∀ (t : Txn V) (k : Option V → Client V), (∀ v, Acc Next (startAt (k v))) → ∀ b : Body V, Acc Next (CSt.body t b k) := by
    intro t k hk b
    induction b with
    | ret v => exact ⟨_, fun y hy => by cases hy; exact unl _ _ (hk _)⟩
    | get m b ih => exact ⟨_, fun y hy => by cases hy with | load x => exact ih x⟩
    | put m v b ih => exact ⟨_, fun y hy => by cases hy; exact ih⟩
  have los : ∀ (t : Txn V) (k : Option V → Client V), (∀ v, Acc Next (startAt (k v))) → ∀ (pre : List Take),
      Acc Next (CSt.losing pre t k) := by
    intro t k hk pre
    exact ⟨_, fun y hy => by cases hy; exact unl _ _ (hk _)⟩
  have loc : ∀ (t : Txn V) (k : Option V → Client V), (∀ v, Acc Next (startAt (k v))) → ∀ (rest pre : List Take),
      Acc Next (takeFrom pre rest t k) := by
    intro t k hk rest
    induction rest with
    | nil => intro pre; exact bod t k hk t.body
    | cons m rest ih =>
      intro pre
      refine ⟨_, fun y hy => ?_⟩
      cases hy with
      | take => exact ih _
      | fail => exact los t k hk pre
  intro c
  induction c with
  | stop => exact ⟨_, fun y hy => by cases hy⟩
  | txn t k ih => exact loc t k ih t.takes []

/-- One of the goroutines moves. -/
def ListNext (l' l : List (CSt V)) : Prop := ∃ (i : Nat) (c c' : CSt V), l[i]? = some c ∧ Next c' c ∧ l' = l.set i c'

theorem listNext_cons {a : CSt V} (ha : Acc Next a) : ∀ {l : List (CSt V)}, Acc ListNext l → Acc ListNext (a :: l) := by
  induction ha with
  | intro a ha iha =>
    intro l hl
    induction hl with
    | intro l hl ihl =>
      refine ⟨_, ?_⟩
      rintro y ⟨i, c, c', hi, hn, rfl⟩
      cases i with
      | zero =>
        simp only [List.getElem?_cons_zero, Option.some.injEq] at hi
        subst hi
        exact iha c' hn ⟨_, hl⟩
      | succ i => exact ihl _ ⟨i, c, c', by simpa using hi, hn, rfl⟩

theorem listNext_acc : ∀ (l : List (CSt V)), (∀ c ∈ l, Acc Next c) → Acc ListNext l
  | [], _ => ⟨_, by rintro y ⟨i, c, c', hi, _⟩; simp at hi⟩
  | a :: l, h => listNext_cons (h a (List.mem_cons_self ..)) (listNext_acc l fun c hc => h c (List.mem_cons_of_mem _ hc))

theorem moves_acc {cl : List (CSt V)} (h : Acc ListNext cl) : ∀ n, Acc Moves (cl, n) := by
  induction h with
  | intro cl hcl ih =>
    have down : ∀ d n, cl.length - n ≤ d → Acc Moves (cl, n) := by
      intro d
      induction d with
      | zero =>
        intro n hd
        refine ⟨_, fun y hy => ?_⟩
        cases hy with
        | main h => omega
        | client h hn => exact ih _ ⟨_, _, _, h, hn, rfl⟩ n
      | succ d ihd =>
        intro n hd
        refine ⟨_, fun y hy => ?_⟩
        cases hy with
        | main h => exact ihd (n + 1) (by omega)
        | client h hn => exact ih _ ⟨_, _, _, h, hn, rfl⟩ n
    exact fun n => down _ n (Nat.le_refl _)

/-! ### Executions -/

theorem startAt_body {c : Client V} {t : Txn V} {b : Body V} {k : Option V → Client V} (h : startAt c = .body t b k) : b = t.body := by
  cases c with
  | stop => cases h
  | txn t1 k1 =>
    have e' : takeFrom [] t1.takes t1 k1 = .body t b k := h
    cases hl : t1.takes with
    | nil => rw [hl] at e'; cases e'; rfl
    | cons a r => rw [hl] at e'; cases e'

theorem initial {P : Nat → Txn V → Prop} (f : Nat → V) {cs : List (Client V)} (hP : Good cs P)
    (hcs : ∀ (i : Nat) (c : Client V), cs[i]? = some c → c.All (P i)) :
    Inv P f cs (cs.map startAt) 0 f (program f cs) [] where
  procs := by
    have e : (cs.map startAt).mapIdx CSt.proc = cs.mapIdx Client.proc := by
      apply List.ext_getElem?
      intro j
      rw [List.getElem?_mapIdx, List.getElem?_mapIdx, List.getElem?_map, Option.map_map]
      cases cs[j]? with
      | none => rfl
      | some c => simp only [Option.map_some, Function.comp, startAt_proc]
    rw [e]
    rfl
  alive := rfl
  chans := rfl
  locks := fun m => by
    constructor
    · intro h; cases h
    · rintro ⟨j, c, hj, hm⟩
      rw [List.getElem?_map] at hj
      cases hc : cs[j]? with
      | none => rw [hc] at hj; cases hj
      | some d => rw [hc] at hj; cases hj; rw [startAt_held] at hm; cases hm
  unique := fun i j c d m hi _ hm _ => by
    rw [List.getElem?_map] at hi
    cases hc : cs[i]? with
    | none => rw [hc] at hi; cases hi
    | some d => rw [hc] at hi; cases hi; rw [startAt_held] at hm; cases hm
  ok := fun i c hi => by
    rw [List.getElem?_map] at hi
    cases hc : cs[i]? with
    | none => rw [hc] at hi; cases hi
    | some d => rw [hc] at hi; cases hi; exact startAt_ok hP (hcs _ d hc)
  mem := fun m _ => rfl
  bodies := fun j t b k hj => by
    rw [List.getElem?_map] at hj
    cases hc : cs[j]? with
    | none => rw [hc] at hj; cases hj
    | some d =>
      rw [hc] at hj
      have := startAt_body (Option.some.inj hj)
      subst this
      exact ⟨rfl, fun _ _ => rfl⟩
  serial := by
    have e : (cs.map startAt).map CSt.left = cs := by
      rw [List.map_map]
      conv => rhs; rw [← List.map_id cs]
      exact List.map_congr_left fun c _ => startAt_left c
    rw [e]
    exact .nil _ _

theorem run_inv {P : Nat → Txn V → Prop} {f : Nat → V} {cs : List (Client V)} (hP : Good cs P)
    (hcs : ∀ (i : Nat) (c : Client V), cs[i]? = some c → c.All (P i)) {tr : List (Nat × Option V)}
    {s : Config V (Nat × Option V)} (h : Run (program f cs) tr s) : ∃ cl n com, Inv P f cs cl n com s tr := by
  induction h with
  | nil => exact ⟨_, _, _, initial f hP hcs⟩
  | step r h ih =>
    obtain ⟨cl, n, com, hI⟩ := ih
    obtain ⟨cl', n', com', hI', _⟩ := hI.step hP h
    exact ⟨_, _, _, hI'⟩
/-! ### Assumptions on all transactions -/

theorem Client.All.imp {P Q : Txn V → Prop} (h : ∀ t, P t → Q t) : ∀ {c : Client V}, c.All P → c.All Q
  | .stop, _ => trivial
  | .txn _ _, hc => ⟨h _ hc.1, fun v => (hc.2 v).imp h⟩

theorem Client.All.mentions {P : Txn V → Prop} : ∀ {c : Client V}, c.All P → c.All fun t => P t ∧ ∀ m ∈ t.locks, c.Mentions m
  | .stop, _ => trivial
  | .txn _ _, hc => ⟨⟨hc.1, fun _ hm => .inl hm⟩, fun v => (hc.2 v).mentions.imp fun _ h => ⟨h.1, fun m hm => .inr ⟨v, h.2 m hm⟩⟩⟩

/-- Everything that is assumed of the transactions of goroutine `i`. -/
def Assumed (cs : List (Client V)) (P : Txn V → Prop) (i : Nat) (t : Txn V) : Prop := P t ∧ ∀ m ∈ t.locks, Mentioned cs i m

theorem assumed_good {P : Txn V → Prop} (hP : ∀ t, P t → t.Ok) (cs : List (Client V)) : Good cs (Assumed cs P) :=
  ⟨fun _ _ h => hP _ h.1, fun _ _ h => h.2⟩

theorem assumed_all {P : Txn V → Prop} {cs : List (Client V)} (hcs : ∀ c ∈ cs, c.All P) (i : Nat) (c : Client V)
    (hc : cs[i]? = some c) : c.All (Assumed cs P i) :=
  (hcs c (List.mem_of_getElem? hc)).mentions.imp fun _ h => ⟨h.1, fun m hm => ⟨c, hc, h.2 m hm⟩⟩

/-! ### Every order of the transactions is possible -/

theorem goAll_run (ps : List (Proc V (Nat × Option V))) : ∀ (s : Config V (Nat × Option V)) (qs : List (Proc V (Nat × Option V))),
    s.procs = goAll ps .done :: qs → s.crashed = false → Run s [] { s with procs := .done :: (qs ++ ps) } := by
  induction ps with
  | nil =>
    intro s qs h _
    have e : { s with procs := .done :: (qs ++ []) } = s := by rw [List.append_nil]; cases s; cases h; rfl
    rw [e]
    exact .nil _
  | cons p ps ih =>
    intro s qs h hc
    have st : Step s none _ := Step.go hc (i := 0) (p := p) (k := goAll ps .done) (by rw [h]; rfl)
    have r := ih { s with procs := s.procs.set 0 (goAll ps .done) ++ [p] } (qs ++ [p]) (by rw [h]; rfl) hc
    have := (Run.one st).trans r
    simpa using this
theorem takeAll_run (i : Nat) (l : List Nat → Proc V (Nat × Option V)) (k : (Nat → Nat) → Proc V (Nat × Option V)) :
    ∀ (ts : List Take) (held : List Nat) (s : Config V (Nat × Option V)),
    s.procs[i]? = some (takeAll l ts held id k) → s.crashed = false → (ts.map Take.m).Nodup → (∀ m ∈ ts.map Take.m, s.locks m = false) →
    Run s [] { s with procs := s.procs.set i (k id), locks := fun m => if m ∈ ts.map Take.m then true else s.locks m } := by
  intro ts
  induction ts with
  | nil =>
    intro held s h hc _ _
    have e : s.procs.set i (k id) = s.procs := by
      apply List.ext_getElem?
      intro j
      by_cases hj : i = j
      · subst hj; rw [List.getElem?_set_self', h]; rfl
      · rw [List.getElem?_set_ne hj]
    rw [e]
    simp only [List.map_nil, List.not_mem_nil, if_false]
    exact .nil _
  | cons x ts ih =>
    intro held s h hc hn hf
    obtain ⟨w, m⟩ := x
    rw [List.map_cons] at hn hf
    have hn' := List.nodup_cons.1 hn
    have st : Step s none { s with procs := s.procs.set i (takeAll l ts (held ++ [m]) id k), locks := upd s.locks m true } := by
      cases w with
      | true =>
        rw [takeAll_wait] at h
        exact Step.lock hc h (hf m (List.mem_cons_self ..))
      | false =>
        rw [takeAll_try] at h
        have := Step.tryLock hc h (hf m (List.mem_cons_self ..))
        simp only [if_true] at this
        exact this
    have r := ih (held ++ [m]) { s with procs := s.procs.set i (takeAll l ts (held ++ [m]) id k), locks := upd s.locks m true }
      (by rw [List.getElem?_set_self', h]; rfl) hc hn'.2
      (fun x hx => by
        have : x ≠ m := fun e => hn'.1 (e ▸ hx)
        simp only [upd, if_neg this]
        exact hf x (List.mem_cons_of_mem _ hx))
    have := (Run.one st).trans r
    have e : (fun x => if x ∈ ts.map Take.m then true else upd s.locks m true x) =
        fun x => if x ∈ (⟨w, m⟩ :: ts : List Take).map Take.m then true else s.locks x := by
      funext x
      rw [List.map_cons]
      by_cases h1 : x ∈ ts.map Take.m
      · rw [if_pos h1, if_pos (List.mem_cons_of_mem _ h1)]
      · rw [if_neg h1]
        by_cases h2 : x = m
        · rw [if_pos (h2 ▸ List.mem_cons_self ..), upd, if_pos h2]
        · rw [if_neg (fun h => (List.mem_cons.1 h).elim h2 h1), upd, if_neg h2]
    rw [← e]
    simpa using this

theorem body_run (i : Nat) (k : V → Proc V (Nat × Option V)) : ∀ (b : Body V) (s : Config V (Nat × Option V)),
    s.procs[i]? = some (bodyProc id b k) → s.crashed = false →
    Run s [] { s with procs := s.procs.set i (k (b.run s.vars).1), vars := (b.run s.vars).2 } := by
  intro b
  induction b with
  | ret v =>
    intro s h hc
    have e : s.procs.set i (k v) = s.procs := by
      apply List.ext_getElem?
      intro j
      by_cases hj : i = j
      · subst hj; rw [List.getElem?_set_self', h]; rfl
      · rw [List.getElem?_set_ne hj]
    simp only [Body.run]
    rw [e]
    exact .nil _
  | get m b ih =>
    intro s h hc
    have st := Step.load hc h
    have r := ih (s.vars m) { s with procs := s.procs.set i (bodyProc id (b (s.vars m)) k) }
      (by rw [List.getElem?_set_self', h]; rfl) hc
    simp only [List.set_set] at r
    exact (Run.one st).trans r
  | put m v b ih =>
    intro s h hc
    have st := Step.store hc h
    have r := ih { s with procs := s.procs.set i (bodyProc id b k), vars := upd s.vars m v }
      (by rw [List.getElem?_set_self', h]; rfl) hc
    simp only [List.set_set] at r
    exact (Run.one st).trans r

theorem unlockAll_run (i : Nat) (k : Proc V (Nat × Option V)) : ∀ (ms : List Nat) (s : Config V (Nat × Option V)),
    s.procs[i]? = some (unlockAll ms k) → s.crashed = false → ms.Nodup → (∀ m ∈ ms, s.locks m = true) →
    Run s [] { s with procs := s.procs.set i k, locks := fun m => if m ∈ ms then false else s.locks m } := by
  intro ms
  induction ms with
  | nil =>
    intro s h hc _ _
    have e : s.procs.set i k = s.procs := by
      apply List.ext_getElem?
      intro j
      by_cases hj : i = j
      · subst hj; rw [List.getElem?_set_self', h]; rfl
      · rw [List.getElem?_set_ne hj]
    rw [e]
    simp only [List.not_mem_nil, if_false]
    exact .nil _
  | cons m ms ih =>
    intro s h hc hn hf
    have hn' := List.nodup_cons.1 hn
    have h' : s.procs[i]? = some (.unlock m (unlockAll ms k)) := h
    have st := Step.unlock hc h' (hf m (List.mem_cons_self ..))
    have r := ih { s with procs := s.procs.set i (unlockAll ms k), locks := upd s.locks m false }
      (by rw [List.getElem?_set_self', h]; rfl) hc hn'.2
      (fun x hx => by
        have : x ≠ m := fun e => hn'.1 (e ▸ hx)
        simp only [upd, if_neg this]
        exact hf x (List.mem_cons_of_mem _ hx))
    have := (Run.one st).trans r
    have e : (fun x => if x ∈ ms then false else upd s.locks m false x) = fun x => if x ∈ m :: ms then false else s.locks x := by
      funext x
      by_cases h1 : x ∈ ms
      · rw [if_pos h1, if_pos (List.mem_cons_of_mem _ h1)]
      · rw [if_neg h1]
        by_cases h2 : x = m
        · rw [if_pos (h2 ▸ List.mem_cons_self ..), upd, if_pos h2]
        · rw [if_neg (fun h => (List.mem_cons.1 h).elim h2 h1), upd, if_neg h2]
    rw [← e]
    simpa using this

/-- All goroutines have been started and are between transactions. -/
def quiet (f : Nat → V) (cs : List (Client V)) : Config V (Nat × Option V) :=
  { procs := .done :: cs.mapIdx Client.proc, chans := [], locks := fun _ => false, vars := f, crashed := false }

theorem txn_run {f : Nat → V} {cs : List (Client V)} {i : Nat} {t : Txn V} {k : Option V → Client V} (ht : t.Ok)
    (hi : cs[i]? = some (.txn t k)) :
    Run (quiet f cs) [(i, some (t.body.run f).1)] (quiet (t.body.run f).2 (cs.set i (k (some (t.body.run f).1)))) := by
  have h0 : (quiet f cs).procs[i + 1]? = some (takeAll (fun held => .emit (i, none) (unlockAll (t.back held) ((k none).proc i))) t.takes [] id fun p => bodyProc p t.body fun v => .emit (i, some v) (unlockAll t.unlocks ((k (some v)).proc i))) := by
    rw [quiet, List.getElem?_cons_succ, List.getElem?_mapIdx, hi]
    rfl
  have r1 := takeAll_run (i + 1) _ _ t.takes [] (quiet f cs) h0 rfl ht.nodup (fun _ _ => rfl)
  have r2 := body_run (i + 1) (fun v => .emit (i, some v) (unlockAll t.unlocks ((k (some v)).proc i))) t.body
    { quiet f cs with
      procs := (quiet f cs).procs.set (i + 1) (bodyProc id t.body fun v => .emit (i, some v) (unlockAll t.unlocks ((k (some v)).proc i))),
      locks := fun m => if m ∈ t.takes.map Take.m then true else false }
    (by rw [List.getElem?_set_self', h0]; rfl) rfl
  have r3 := Step.emit (s := { quiet f cs with
      procs := (quiet f cs).procs.set (i + 1) (.emit (i, some (t.body.run f).1) (unlockAll t.unlocks ((k (some (t.body.run f).1)).proc i))),
      locks := fun m => if m ∈ t.takes.map Take.m then true else false, vars := (t.body.run f).2 }) rfl
      (i := i + 1) (e := (i, some (t.body.run f).1)) (k := unlockAll t.unlocks ((k (some (t.body.run f).1)).proc i))
    (by rw [List.getElem?_set_self', h0]; rfl)
  have r4 := unlockAll_run (i + 1) ((k (some (t.body.run f).1)).proc i) t.unlocks
    { quiet f cs with
      procs := (quiet f cs).procs.set (i + 1) (unlockAll t.unlocks ((k (some (t.body.run f).1)).proc i)),
      locks := fun m => if m ∈ t.takes.map Take.m then true else false, vars := (t.body.run f).2 }
    (by rw [List.getElem?_set_self', h0]; rfl) rfl (ht.unlocks.nodup_iff.2 ht.nodup)
    (fun m hm => if_pos (show m ∈ t.takes.map Take.m from ht.unlocks.mem_iff.1 hm))
  have e : (quiet (t.body.run f).2 (cs.set i (k (some (t.body.run f).1)))) =
      { quiet f cs with
        procs := (quiet f cs).procs.set (i + 1) ((k (some (t.body.run f).1)).proc i),
        locks := fun m => if m ∈ t.unlocks then false else if m ∈ t.takes.map Take.m then true else false, vars := (t.body.run f).2 } := by
    have e1 : (fun m => if m ∈ t.unlocks then false else if m ∈ t.takes.map Take.m then true else false) = fun _ : Nat => false := by
      funext m
      by_cases h1 : m ∈ t.unlocks
      · rw [if_pos h1]
      · rw [if_neg h1]
        exact if_neg fun h => h1 (ht.unlocks.mem_iff.2 h)
    have e2 : (cs.set i (k (some (t.body.run f).1))).mapIdx Client.proc = (cs.mapIdx Client.proc).set i ((k (some (t.body.run f).1)).proc i) := by
      apply List.ext_getElem?
      intro j
      by_cases hj : i = j
      · subst hj
        rw [List.getElem?_set_self', List.getElem?_mapIdx, List.getElem?_mapIdx, List.getElem?_set_self', hi]
        rfl
      · rw [List.getElem?_set_ne hj, List.getElem?_mapIdx, List.getElem?_mapIdx, List.getElem?_set_ne hj]
    rw [e1]
    simp only [quiet, e2, List.set_cons_succ]
  rw [e]
  have r12 := r1.trans r2
  have e3 : Run _ [(i, some (t.body.run f).1)] _ := Run.one r3
  simp only [Config.to, List.set_set] at r12 e3 r4
  exact (r12.trans e3).trans r4
end Backoff
open Backoff
section
variable {V : Type}

/-- C167: whatever the schedule, nothing crashes, the results of the transactions are those of executing them at one stroke in the
order in which they give their results, those given up have no effect, and every Mutex that is not locked has the value it has
after that. -/
theorem C167_serializable (f : Nat → V) (cs : List (Client V)) (hcs : ∀ c ∈ cs, c.All Txn.Ok) {tr : List (Nat × Option V)}
    {s : Config V (Nat × Option V)} (h : Run (program f cs) tr s) :
    s.crashed = false ∧ ∃ cs' g, Serial cs f tr cs' g ∧ ∀ m, s.locks m = false → s.vars m = g m := by
  obtain ⟨cl, n, com, hI⟩ := run_inv (assumed_good (fun _ h => h) cs) (assumed_all hcs) h
  refine ⟨hI.alive, _, _, hI.serial, fun m hm => hI.mem m fun j c hc hu => ?_⟩
  rw [(hI.locks m).2 ⟨j, c, hc, hu.held⟩] at hm
  cases hm

/-- C167: when a Mutex taken by Lock ranks above those that the transaction has already taken (and be it by TryLock), a state in
which nothing can happen is one in which all goroutines are through, and the Mutexes have the values of the serial execution. -/
theorem C167_no_deadlock (rank : Nat → Nat) (f : Nat → V) (cs : List (Client V))
    (hcs : ∀ c ∈ cs, c.All fun t => t.Ok ∧ t.Ordered rank) {tr : List (Nat × Option V)} {s : Config V (Nat × Option V)}
    (h : Run (program f cs) tr s) (hn : ∀ e s', ¬ Step s e s') :
    (∀ p ∈ s.procs, p = .done) ∧ (∀ m, s.locks m = false) ∧ ∃ cs', Serial cs f tr cs' s.vars ∧ ∀ c ∈ cs', c = .stop := by
  obtain ⟨cl, n, com, hI⟩ := run_inv (assumed_good (fun _ h => h.1) cs) (assumed_all hcs) h
  obtain ⟨hlen, hover⟩ := hI.stopped (rank := rank) (fun _ _ h => h.1.2) hn
  have hv : s.vars = com := by
    funext m
    refine hI.mem m fun j c hc hu => ?_
    rw [hover j c hc] at hu
    cases hu
  refine ⟨?_, ?_, ?_⟩
  · intro p hp
    obtain ⟨i, hi⟩ := List.getElem?_of_mem hp
    rcases hI.who hi with ⟨_, e⟩ | ⟨j, c, _, _, hc, e⟩
    · rcases main_instr cl n with ⟨_, e'⟩ | ⟨_, h1, _⟩
      · exact e.trans e'
      · omega
    · rw [e, hover j c hc]; rfl
  · intro m
    cases hl : s.locks m with
    | false => rfl
    | true =>
      obtain ⟨j, c, hc, hm⟩ := (hI.locks m).1 hl
      rw [hover j c hc] at hm
      cases hm
  · refine ⟨_, hv ▸ hI.serial, fun c hc => ?_⟩
    obtain ⟨d, hd, rfl⟩ := List.mem_map.1 hc
    obtain ⟨j, hj⟩ := List.getElem?_of_mem hd
    rw [hover j d hj]
    rfl

/-- C167: every execution ends, whatever the schedule. -/
theorem C167_terminates (f : Nat → V) (cs : List (Client V)) (hcs : ∀ c ∈ cs, c.All Txn.Ok) :
    Acc (fun t s : Config V (Nat × Option V) => ∃ e, Step s e t) (program f cs) := by
  have hG := assumed_good (P := Txn.Ok) (fun _ h => h) cs
  have key : ∀ x : List (CSt V) × Nat, Acc Moves x → ∀ (s : Config V (Nat × Option V)) (tr : List (Nat × Option V)) (com : Nat → V),
      Inv (Assumed cs Txn.Ok) f cs x.1 x.2 com s tr → Acc (fun t s : Config V (Nat × Option V) => ∃ e, Step s e t) s := by
    intro x hx
    induction hx with
    | intro x _ ih =>
      intro s tr com hI
      refine ⟨_, ?_⟩
      rintro s' ⟨e, st⟩
      obtain ⟨cl', n', com', hI', hm⟩ := hI.step hG st
      exact ih (cl', n') hm _ _ _ hI'
  refine key _ (moves_acc (listNext_acc _ ?_) 0) _ _ _ (initial f hG (assumed_all hcs))
  intro c hc
  obtain ⟨d, _, rfl⟩ := List.mem_map.1 hc
  exact next_acc d

/-- C167: what every transaction preserves when it is executed at one stroke holds of the values of the Mutexes whenever none of
them is locked, however many transactions were given up. -/
theorem C167_invariant (I : (Nat → V) → Prop) (f : Nat → V) (cs : List (Client V)) (hf : I f)
    (hcs : ∀ c ∈ cs, c.All fun t => t.Ok ∧ ∀ g, I g → I (t.body.run g).2) {tr : List (Nat × Option V)}
    {s : Config V (Nat × Option V)} (h : Run (program f cs) tr s) (hl : ∀ m, s.locks m = false) : I s.vars := by
  obtain ⟨cl, n, com, hI⟩ := run_inv (assumed_good (fun _ h => h.1) cs) (assumed_all hcs) h
  have hv : s.vars = com := by
    funext m
    refine hI.mem m fun j c hc hu => ?_
    have := hl m
    rw [(hI.locks m).2 ⟨j, c, hc, hu.held⟩] at this
    cases this
  have key : ∀ {cs cs' : List (Client V)} {f g : Nat → V} {tr : List (Nat × Option V)}, Serial cs f tr cs' g → I f →
      (∀ c ∈ cs, c.All fun t => t.Ok ∧ ∀ g, I g → I (t.body.run g).2) →
      I g ∧ ∀ c ∈ cs', c.All fun t => t.Ok ∧ ∀ g, I g → I (t.body.run g).2 := by
    intro cs cs' f g tr hs hf hcs
    induction hs with
    | nil => exact ⟨hf, hcs⟩
    | step _ hi ih =>
      obtain ⟨h1, h2⟩ := ih hf
      have ht := h2 _ (List.mem_of_getElem? hi)
      refine ⟨ht.1.2 _ h1, fun c hc => ?_⟩
      rcases List.mem_or_eq_of_mem_set hc with h3 | h3
      · exact h2 c h3
      · rw [h3]; exact ht.2 _
    | giveUp _ hi _ ih =>
      obtain ⟨h1, h2⟩ := ih hf
      have ht := h2 _ (List.mem_of_getElem? hi)
      refine ⟨h1, fun c hc => ?_⟩
      rcases List.mem_or_eq_of_mem_set hc with h3 | h3
      · exact h2 c h3
      · rw [h3]; exact ht.2 _
  rw [hv]
  exact (key hI.serial hf hcs).1

/-- C167: TryLock does not fail for nothing.  A goroutine whose TryLocks are on Mutexes that no other goroutine uses gives nothing
up. -/
theorem C167_uncontended (f : Nat → V) (cs : List (Client V)) (hcs : ∀ c ∈ cs, c.All Txn.Ok) {i : Nat} {c : Client V}
    (hc : cs[i]? = some c)
    (hi : c.All fun t => ∀ x ∈ t.takes, x.waits = false → ∀ (j : Nat) (d : Client V), j ≠ i → cs[j]? = some d → ¬ d.Mentions x.m)
    {tr : List (Nat × Option V)} {s : Config V (Nat × Option V)} (h : Run (program f cs) tr s) : (i, none) ∉ tr := by
  obtain ⟨_, cs', g, hs, -⟩ := C167_serializable f cs hcs h
  clear h
  suffices H : (i, none) ∉ tr ∧ ∃ d, cs'[i]? = some d ∧ d.All fun t => ∀ x ∈ t.takes, x.waits = false →
      ∀ (j : Nat) (d : Client V), j ≠ i → cs[j]? = some d → ¬ d.Mentions x.m from H.1
  induction hs with
  | nil => exact ⟨List.not_mem_nil, c, hc, hi⟩
  | @step cs' f f' tr j t k h hj ih =>
    obtain ⟨h1, d, hd, hall⟩ := ih
    refine ⟨fun hm => ?_, ?_⟩
    · rcases List.mem_append.1 hm with hm | hm
      · exact h1 hm
      · simp at hm
    · by_cases e : j = i
      · subst e
        rw [hj] at hd
        cases hd
        exact ⟨_, by rw [List.getElem?_set_self', hj]; rfl, hall.2 _⟩
      · exact ⟨d, by rw [List.getElem?_set_ne e]; exact hd, hall⟩
  | @giveUp cs' f f' tr j t k h hj ht ih =>
    obtain ⟨h1, d, hd, hall⟩ := ih
    by_cases e : j = i
    · subst e
      rw [hj] at hd
      cases hd
      obtain ⟨x, hx, hw, j', hne, d', hd', hm⟩ := ht
      exact absurd hm (hall.1 x hx hw j' d' hne hd')
    · refine ⟨fun hm => ?_, d, by rw [List.getElem?_set_ne e]; exact hd, hall⟩
      rcases List.mem_append.1 hm with hm | hm
      · exact h1 hm
      · simp at hm
        exact e hm.symm

/-- C167: every serial execution in which nothing is given up is the outcome of some schedule. -/
theorem C167_any_order (f : Nat → V) (cs : List (Client V)) (hcs : ∀ c ∈ cs, c.All Txn.Ok) {tr : List (Nat × Option V)}
    {cs' : List (Client V)} {g : Nat → V} (h : Serial cs f tr cs' g) (htr : ∀ e ∈ tr, e.2 ≠ none) :
    ∃ s, Run (program f cs) tr s ∧ s.vars = g ∧ ∀ m, s.locks m = false := by
  have key : (∀ c ∈ cs', c.All Txn.Ok) ∧ Run (program f cs) tr (quiet g cs') := by
    induction h with
    | nil f =>
      have r := goAll_run (cs.mapIdx Client.proc) (program f cs) [] rfl rfl
      exact ⟨hcs, by simpa [quiet, program, start] using r⟩
    | step _ hi ih =>
      obtain ⟨h1, h2⟩ := ih fun e he => htr e (List.mem_append_left _ he)
      have ht := h1 _ (List.mem_of_getElem? hi)
      refine ⟨fun c hc => ?_, h2.trans (txn_run ht.1 hi)⟩
      rcases List.mem_or_eq_of_mem_set hc with h3 | h3
      · exact h1 c h3
      · rw [h3]; exact ht.2 _
    | giveUp => exact absurd rfl (htr _ (List.mem_append_right _ (List.mem_singleton.2 rfl)))
  exact ⟨_, key.2, rfl, fun _ => rfl⟩

/-- C167: nothing says that somebody succeeds.  Of two goroutines that Lock a Mutex each and then TryLock that of the other, both
may have to give up, whatever they would do with the values. -/
theorem C167_both_give_up (f : Nat → V) {a b : Nat} (hab : a ≠ b) (b1 b2 : Tx.Body V) (u1 u2 : List Nat) (k1 k2 : Option V → Client V) :
    ∃ s, Run (program f [.txn ⟨[⟨true, a⟩, ⟨false, b⟩], b1, u1, id⟩ k1, .txn ⟨[⟨true, b⟩, ⟨false, a⟩], b2, u2, id⟩ k2])
      [(0, none), (1, none)] s := by
  let t1 : Txn V := ⟨[⟨true, a⟩, ⟨false, b⟩], b1, u1, id⟩
  let t2 : Txn V := ⟨[⟨true, b⟩, ⟨false, a⟩], b2, u2, id⟩
  let q1 : Proc V (Nat × Option V) := bodyProc id b1 (after 0 t1 k1)
  let q2 : Proc V (Nat × Option V) := bodyProc id b2 (after 1 t2 k2)
  let r1 : Proc V (Nat × Option V) := unlockAll [a] ((k1 none).proc 0)
  let r2 : Proc V (Nat × Option V) := unlockAll [b] ((k2 none).proc 1)
  let x1 : Proc V (Nat × Option V) := .tryLock b fun ok => if ok then q1 else .emit (0, none) r1
  let x2 : Proc V (Nat × Option V) := .tryLock a fun ok => if ok then q2 else .emit (1, none) r2
  have e1 : (Client.txn t1 k1).proc 0 = .lock a x1 := by
    simp only [Client.proc, t1, takeAll_wait, takeAll_try]
    rfl
  have e2 : (Client.txn t2 k2).proc 1 = .lock b x2 := by
    simp only [Client.proc, t2, takeAll_wait, takeAll_try]
    rfl
  have e : program f [.txn t1 k1, .txn t2 k2] = start f (.go (.lock a x1) (.go (.lock b x2) .done)) := by
    rw [program, List.mapIdx_cons, List.mapIdx_cons, e1, e2]
    rfl
  rw [e]
  let l1 : Nat → Bool := upd (fun _ => false) a true
  let l2 : Nat → Bool := upd l1 b true
  have la : l2 a = true := by simp only [l2, l1, upd, if_neg hab, if_pos]
  have lb : l2 b = true := by simp only [l2, upd, if_pos]
  have lb1 : l1 b = false := by simp only [l1, upd, if_neg (Ne.symm hab)]
  let C (p q r : Proc V (Nat × Option V)) (l : Nat → Bool) : Config V (Nat × Option V) :=
    { procs := [p, q, r], chans := [], locks := l, vars := f, crashed := false }
  have s1 : Step (start f (.go (.lock a x1) (.go (.lock b x2) .done))) none
      ({ procs := [.go (.lock b x2) .done, .lock a x1], chans := [], locks := fun _ => false, vars := f, crashed := false } :
        Config V (Nat × Option V)) := Step.go (i := 0) rfl rfl
  have s2 : Step ({ procs := [.go (.lock b x2) .done, .lock a x1], chans := [], locks := fun _ => false, vars := f, crashed := false } :
        Config V (Nat × Option V)) none (C .done (.lock a x1) (.lock b x2) fun _ => false) := Step.go (i := 0) rfl rfl
  have s3 : Step (C .done (.lock a x1) (.lock b x2) fun _ => false) none (C .done x1 (.lock b x2) l1) :=
    Step.lock (i := 1) rfl rfl rfl
  have s4 : Step (C .done x1 (.lock b x2) l1) none (C .done x1 x2 l2) := Step.lock (i := 2) rfl rfl lb1
  have s5 : Step (C .done x1 x2 l2) none (C .done (.emit (0, none) r1) x2 l2) :=
    Step.tryLockFails (s := C .done x1 x2 l2) (i := 1) (k := fun ok => if ok then q1 else .emit (0, none) r1) rfl rfl (.inl lb)
  have s6 : Step (C .done (.emit (0, none) r1) x2 l2) none (C .done (.emit (0, none) r1) (.emit (1, none) r2) l2) :=
    Step.tryLockFails (s := C .done (.emit (0, none) r1) x2 l2) (i := 2) (k := fun ok => if ok then q2 else .emit (1, none) r2) rfl rfl
      (.inl la)
  have s7 : Step (C .done (.emit (0, none) r1) (.emit (1, none) r2) l2) (some (0, none)) (C .done r1 (.emit (1, none) r2) l2) :=
    Step.emit (i := 1) rfl rfl
  have s8 : Step (C .done r1 (.emit (1, none) r2) l2) (some (1, none)) (C .done r1 r2 l2) := Step.emit (i := 2) rfl rfl
  exact ⟨_, ((((((((Run.nil _).step s1).step s2).step s3).step s4).step s5).step s6).step s7).step s8⟩

/-! ### An instance: philosophers around a table -/

/-- Lock the left fork, TryLock the right one, and eat with both; if the right one is not to be had, put down the left one and try
again, so many times.  The value of a fork tells how often it was used. -/
def Backoff.meal (left right : Nat) : Txn Nat where
  takes := [⟨true, left⟩, ⟨false, right⟩]
  body := .get left fun x => .put left (x + 1) (.get right fun y => .put right (y + 1) (.ret 0))
  unlocks := [right, left]
  back := id
def Backoff.philosopher (left right : Nat) : Nat → Client Nat
  | 0 => .stop
  | n + 1 => .txn (meal left right) fun _ => philosopher left right n

/-- A table of `n` philosophers, each of whom makes `tries` attempts; their forks make a circle. -/
def Backoff.table (n tries : Nat) : List (Client Nat) := (List.range n).map fun i => philosopher i ((i + 1) % n) tries

theorem Backoff.meal_ok {left right : Nat} (h : left ≠ right) : (meal left right).Ok where
  nodup := by simp [Txn.locks, meal, h]
  within := by simp [Txn.locks, meal, Tx.Body.Within]
  unlocks := by simpa [Txn.locks, meal] using List.Perm.swap left right []
  back := fun _ _ => .refl _

theorem Backoff.meal_ordered (left right : Nat) : (meal left right).Ordered fun _ => 0 := by
  intro pre m post h x hx
  exfalso
  match pre, h with
  | [y], h => simp [meal] at h
  | [y, z], h => simp [meal] at h
  | y :: z :: w :: pre, h => simp [meal] at h

theorem Backoff.philosopher_all {P : Txn Nat → Prop} {left right : Nat} (h : P (meal left right)) :
    ∀ n, (philosopher left right n).All P
  | 0 => trivial
  | n + 1 => ⟨h, fun _ => philosopher_all h n⟩

theorem Backoff.table_all {n : Nat} (hn : 2 ≤ n) (tries : Nat) :
    ∀ c ∈ table n tries, c.All fun t => t.Ok ∧ t.Ordered fun _ => 0 := by
  intro c hc
  obtain ⟨i, hi, rfl⟩ := List.mem_map.1 hc
  have hi' := List.mem_range.1 hi
  refine philosopher_all ⟨meal_ok fun e => ?_, meal_ordered _ _⟩ _
  by_cases h : i + 1 < n
  · rw [Nat.mod_eq_of_lt h] at e; omega
  · have : i + 1 = n := by omega
    rw [this, Nat.mod_self] at e
    omega

/-- C167: philosophers around a table, all of whom reach for the left fork first, never wait for each other for ever: when nothing
can happen any more, all are through with their attempts, no fork is held, and each fork has been used as often as the two
philosophers next to it have eaten. -/
theorem C167_philosophers {n : Nat} (hn : 2 ≤ n) (tries : Nat) {tr : List (Nat × Option Nat)} {s : Config Nat (Nat × Option Nat)}
    (h : Run (program (fun _ => 0) (table n tries)) tr s) (hs : ∀ e s', ¬ Step s e s') :
    (∀ p ∈ s.procs, p = .done) ∧ (∀ m, s.locks m = false) ∧
    ∀ m, s.vars m = tr.countP fun e => e.2.isSome && (e.1 == m || (e.1 + 1) % n == m) := by
  obtain ⟨h1, h2, cs', h3, -⟩ := C167_no_deadlock (fun _ => 0) _ _ (table_all hn tries) h hs
  refine ⟨h1, h2, ?_⟩
  clear h1 h2 h hs
  generalize s.vars = g at h3
  suffices H : (∀ (i : Nat) (c : Client Nat), cs'[i]? = some c → i < n ∧ ∃ r, c = philosopher i ((i + 1) % n) r) ∧
      ∀ m, g m = tr.countP fun e => e.2.isSome && (e.1 == m || (e.1 + 1) % n == m) from H.2
  have keep : ∀ {cs' : List (Client Nat)} {j : Nat} {t : Txn Nat} {k : Option Nat → Client Nat} (v : Option Nat),
      (∀ (i : Nat) (c : Client Nat), cs'[i]? = some c → i < n ∧ ∃ r, c = philosopher i ((i + 1) % n) r) →
      cs'[j]? = some (.txn t k) →
      (j < n ∧ t = meal j ((j + 1) % n)) ∧
      ∀ (i : Nat) (c : Client Nat), (cs'.set j (k v))[i]? = some c → i < n ∧ ∃ r, c = philosopher i ((i + 1) % n) r := by
    intro cs' j t k v hall hj
    obtain ⟨hlt, r, hr⟩ := hall _ _ hj
    cases r with
    | zero => cases hr
    | succ r =>
      cases hr
      refine ⟨⟨hlt, rfl⟩, fun i c hc => ?_⟩
      by_cases e : j = i
      · subst e
        rw [List.getElem?_set_self', hj] at hc
        cases hc
        exact ⟨hlt, r, rfl⟩
      · rw [List.getElem?_set_ne e] at hc
        exact hall i c hc
  generalize hf : (fun _ : Nat => 0) = f0 at h3
  induction h3 with
  | nil =>
    subst hf
    refine ⟨fun i c hc => ?_, fun m => rfl⟩
    simp only [table, List.getElem?_map] at hc
    by_cases hi : i < n
    · rw [List.getElem?_range hi] at hc
      cases hc
      exact ⟨hi, tries, rfl⟩
    · rw [List.getElem?_eq_none (by simpa using hi)] at hc
      cases hc
  | @step cs' f f' tr j t k h hj ih =>
    obtain ⟨i1, i2⟩ := ih hf
    obtain ⟨⟨hlt, rfl⟩, h2⟩ := keep (some _) i1 hj
    refine ⟨h2, fun m => ?_⟩
    have hne : (j + 1) % n ≠ j := by
      by_cases h : j + 1 < n
      · rw [Nat.mod_eq_of_lt h]; omega
      · have : j + 1 = n := by omega
        rw [this, Nat.mod_self]; omega
    rw [List.countP_append, ← i2 m]
    simp only [meal, Tx.Body.run, List.countP_cons, List.countP_nil, Option.isSome_some, Bool.true_and]
    by_cases e1 : m = (j + 1) % n
    · subst e1
      simp [hne]
    · by_cases e2 : m = j
      · subst e2
        simp [e1]
      · simp [e1, e2, Ne.symm e1, Ne.symm e2]
  | @giveUp cs' f f' tr j t k h hj ht ih =>
    obtain ⟨i1, i2⟩ := ih hf
    obtain ⟨_, h2⟩ := keep none i1 hj
    refine ⟨h2, fun m => ?_⟩
    rw [List.countP_append, ← i2 m]
    simp

/-- The table has philosophers, and their attempts end. -/
example : (table 3 2).length = 3 := rfl
example : Acc (fun t s : Config Nat (Nat × Option Nat) => ∃ e, Step s e t) (program (fun _ => 0) (table 3 2)) :=
  C167_terminates _ _ fun c hc => (table_all (by decide) 2 c hc).imp fun _ h => h.1
/-- One meal is a serial execution that changes two forks. -/
example : ∃ cs', Serial (table 3 1) (fun _ => 0) [(1, some 0)] cs' (fun m => if m = 2 then 1 else if m = 1 then 1 else 0) := by
  have := Serial.step (.nil (table 3 1) fun _ => 0) (i := 1) (t := meal 1 2) (k := fun _ => .stop) rfl
  exact ⟨_, this⟩
/-- With Locks only the table could not be ranked: this is the standoff that C157 describes. -/
example : ¬ ∃ rank : Nat → Nat, ∀ i < 3, (⟨[i, (i + 1) % 3], .ret 0, []⟩ : Tx.Txn Nat).Ordered rank := by
  rintro ⟨rank, h⟩
  have h0 := h 0 (by decide)
  have h1 := h 1 (by decide)
  have h2 := h 2 (by decide)
  simp [Tx.Txn.Ordered] at h0 h1 h2
  omega
/-- The hypothesis of `C167_uncontended` is met by a goroutine that TryLocks a Mutex of its own. -/
example : (philosopher 0 1 2).All fun t => ∀ x ∈ t.takes, x.waits = false → ∀ (j : Nat) (d : Client Nat), j ≠ 0 →
    [philosopher 0 1 2, philosopher 2 3 5][j]? = some d → ¬ d.Mentions x.m := by
  have key : ∀ r, ¬ (philosopher 2 3 r).Mentions 1 := by
    intro r
    induction r with
    | zero => exact fun h => h
    | succ r ih =>
      rintro (h | ⟨_, h⟩)
      · simp [meal, Txn.locks] at h
      · exact ih h
  refine philosopher_all ?_ 2
  intro x hx hw j d hj hd
  have hx' : x = ⟨false, 1⟩ := by
    simp only [meal, List.mem_cons, List.not_mem_nil, or_false] at hx
    rcases hx with rfl | rfl
    · cases hw
    · rfl
  subst hx'
  match j, hd with
  | 0, _ => exact absurd rfl hj
  | 1, hd => cases hd; exact key 5
end
end Gost
