import Verif.Model.Thread
/-
Property C157: transactions over several Mutexes.
-/
namespace Gost
open Conc
namespace Tx
variable {V : Type}

/-! ### Programs -/

/-- What is done between the Locks and the Unlocks: read and write the values of Mutexes, which go by numbers, depending on what
was read, and give a result. -/
inductive Body (V : Type) where
  | ret (v : V)
  | get (m : Nat) (k : V → Body V)
  | put (m : Nat) (v : V) (k : Body V)

/-- A transaction: the Mutexes to Lock, in this order, the body, and the order of the Unlocks. -/
structure Txn (V : Type) where
  locks : List Nat
  body : Body V
  unlocks : List Nat

/-- A goroutine: transactions, each of which may depend on the results of the earlier ones. -/
inductive Client (V : Type) where
  | stop
  | txn (t : Txn V) (k : V → Client V)

/-- The Mutexes of the program. -/
def mutex (m : Nat) : Mutex := Mutex.new m m

/-- `p := m.Lock()` for each of the Mutexes; `p` gives the pointers obtained (those of Mutexes that are not locked are not used). -/
def lockAll : List Nat → (Nat → Nat) → ((Nat → Nat) → Proc V (Nat × V)) → Proc V (Nat × V)
  | [], p, k => k p
  | m :: ms, p, k => (mutex m).lock_ fun ptr => lockAll ms (upd p m ptr) k

/-- `m.Unlock()` for each of the Mutexes. -/
def unlockAll : List Nat → Proc V (Nat × V) → Proc V (Nat × V)
  | [], k => k
  | m :: ms, k => (mutex m).unlock (unlockAll ms k)

/-- The body with the pointers `p`. -/
def Body.proc (p : Nat → Nat) : Body V → (V → Proc V (Nat × V)) → Proc V (Nat × V)
  | .ret v, k => k v
  | .get m b, k => .load (p m) fun x => (b x).proc p k
  | .put m v b, k => .store (p m) v (b.proc p k)

/-- Goroutine `i`.  The event `(i, v)` is shown when the body has given its result. -/
def Client.proc (i : Nat) : Client V → Proc V (Nat × V)
  | .stop => .done
  | .txn t k => lockAll t.locks id fun p => t.body.proc p fun v => .emit (i, v) (unlockAll t.unlocks ((k v).proc i))

/-- main starts the goroutines. -/
def program (f : Nat → V) (cs : List (Client V)) : Config V (Nat × V) := start f (goAll (cs.mapIdx Client.proc) .done)

/-! ### Specification -/

/-- The body, executed at one stroke. -/
def Body.run : Body V → (Nat → V) → V × (Nat → V)
  | .ret v, f => (v, f)
  | .get m b, f => (b (f m)).run f
  | .put m v b, f => b.run fun x => if x = m then v else f x

/-- Goroutines whose transactions are executed at one stroke, in the order of the trace. -/
inductive Serial : List (Client V) → (Nat → V) → List (Nat × V) → List (Client V) → (Nat → V) → Prop
  | nil (cs : List (Client V)) (f : Nat → V) : Serial cs f [] cs f
  | step {cs cs' : List (Client V)} {f f' : Nat → V} {tr : List (Nat × V)} {i : Nat} {t : Txn V} {k : V → Client V}
      (h : Serial cs f tr cs' f') (hi : cs'[i]? = some (.txn t k)) :
      Serial cs f (tr ++ [(i, (t.body.run f').1)]) (cs'.set i (k (t.body.run f').1)) (t.body.run f').2

/-- The body uses only these Mutexes. -/
def Body.Within (ms : List Nat) : Body V → Prop
  | .ret _ => True
  | .get m b => m ∈ ms ∧ ∀ v, (b v).Within ms
  | .put m _ b => m ∈ ms ∧ b.Within ms

/-- A transaction uses the Mutexes it has locked, none of them twice, and unlocks all of them. -/
structure Txn.Ok (t : Txn V) : Prop where
  nodup : t.locks.Nodup
  within : t.body.Within t.locks
  unlocks : t.unlocks.Perm t.locks

/-- All transactions of a goroutine satisfy `P`. -/
def Client.All (P : Txn V → Prop) : Client V → Prop
  | .stop => True
  | .txn t k => P t ∧ ∀ v, (k v).All P

/-- The Mutexes are locked in the order of their ranks. -/
def Txn.Ordered (rank : Nat → Nat) (t : Txn V) : Prop := t.locks.Pairwise (rank · < rank ·)

/-! ### Bodies -/

theorem Body.run_congr {ms : List Nat} : ∀ (b : Body V) (f g : Nat → V), b.Within ms → (∀ m ∈ ms, f m = g m) →
    (b.run f).1 = (b.run g).1 ∧ ∀ m ∈ ms, (b.run f).2 m = (b.run g).2 m
  | .ret v, f, g, _, h => ⟨rfl, h⟩
  | .get m b, f, g, hb, h => by
    simp only [Body.run]
    rw [h m hb.1]
    exact run_congr (b (g m)) f g (hb.2 _) h
  | .put m v b, f, g, hb, h => by
    refine run_congr b _ _ hb.2 fun x hx => ?_
    by_cases e : x = m
    · simp only [if_pos e]
    · simp only [if_neg e]; exact h x hx

theorem Body.run_frame {ms : List Nat} {m : Nat} (hm : m ∉ ms) : ∀ (b : Body V) (f : Nat → V), b.Within ms → (b.run f).2 m = f m
  | .ret _, _, _ => rfl
  | .get m' b, f, hb => run_frame hm (b (f m')) f (hb.2 _)
  | .put m' v b, f, hb => by
    rw [Body.run, run_frame hm b _ hb.2]
    have : m ≠ m' := fun e => hm (e ▸ hb.1)
    simp only [if_neg this]

/-! ### States of a goroutine -/

/-- What a goroutine is about to do. -/
inductive CSt (V : Type) where
  | over
  | locking (held : List Nat) (m : Nat) (rest : List Nat) (t : Txn V) (k : V → Client V)
  | body (t : Txn V) (b : Body V) (k : V → Client V)
  | unlocking (u : Nat) (us : List Nat) (c : Client V)

def lockFrom (held : List Nat) : List Nat → Txn V → (V → Client V) → CSt V
  | [], t, k => .body t t.body k
  | m :: rest, t, k => .locking held m rest t k
def startAt : Client V → CSt V
  | .stop => .over
  | .txn t k => lockFrom [] t.locks t k
def unlockFrom : List Nat → Client V → CSt V
  | [], c => startAt c
  | u :: us, c => .unlocking u us c

def after (i : Nat) (t : Txn V) (k : V → Client V) (v : V) : Proc V (Nat × V) :=
  .emit (i, v) (unlockAll t.unlocks ((k v).proc i))

def CSt.proc (i : Nat) : CSt V → Proc V (Nat × V)
  | .over => .done
  | .locking _ m rest t k => lockAll (m :: rest) id fun p => t.body.proc p (after i t k)
  | .body t b k => b.proc id (after i t k)
  | .unlocking u us c => unlockAll (u :: us) (c.proc i)

def CSt.held : CSt V → List Nat
  | .over => []
  | .locking held _ _ _ _ => held
  | .body t _ _ => t.locks
  | .unlocking u us _ => u :: us

/-- What a goroutine has still to do, at one stroke. -/
def CSt.left : CSt V → Client V
  | .over => .stop
  | .locking _ _ _ t k => .txn t k
  | .body t _ k => .txn t k
  | .unlocking _ _ c => c

theorem upd_id (m : Nat) : upd id m m = id := by
  funext x
  simp only [upd, id]
  split
  · rename_i h; exact h.symm
  · rfl

theorem lockAll_cons (m : Nat) (ms : List Nat) (k : (Nat → Nat) → Proc V (Nat × V)) :
    lockAll (m :: ms) id k = .lock m (lockAll ms id k) := by
  simp only [lockAll, Mutex.lock_, mutex, Mutex.new, upd_id]

theorem lockFrom_proc (i : Nat) (held rest : List Nat) (t : Txn V) (k : V → Client V) :
    (lockFrom held rest t k).proc i = lockAll rest id fun p => t.body.proc p (after i t k) := by
  cases rest <;> rfl
theorem startAt_proc (i : Nat) (c : Client V) : (startAt c).proc i = c.proc i := by
  cases c with
  | stop => rfl
  | txn t k => exact lockFrom_proc i [] t.locks t k
theorem unlockFrom_proc (i : Nat) (us : List Nat) (c : Client V) : (unlockFrom us c).proc i = unlockAll us (c.proc i) := by
  cases us with
  | nil => exact startAt_proc i c
  | cons u us => rfl
theorem lockFrom_left (held rest : List Nat) (t : Txn V) (k : V → Client V) : (lockFrom held rest t k).left = .txn t k := by
  cases rest <;> rfl
theorem startAt_left (c : Client V) : (startAt c).left = c := by
  cases c with
  | stop => rfl
  | txn t k => exact lockFrom_left ..
theorem unlockFrom_left (us : List Nat) (c : Client V) : (unlockFrom us c).left = c := by
  cases us with
  | nil => exact startAt_left c
  | cons u us => rfl
theorem lockFrom_held {held rest : List Nat} {t : Txn V} (h : held ++ rest = t.locks) (k : V → Client V) :
    (lockFrom held rest t k).held = held := by
  cases rest with
  | nil => simp only [lockFrom, CSt.held, ← h, List.append_nil]
  | cons m rest => rfl
theorem startAt_held (c : Client V) : (startAt c).held = [] := by
  cases c with
  | stop => rfl
  | txn t k => exact lockFrom_held rfl k
theorem unlockFrom_held (us : List Nat) (c : Client V) : (unlockFrom us c).held = us := by
  cases us with
  | nil => exact startAt_held c
  | cons u us => rfl

/-- What is known about a single goroutine. -/
def CSt.Ok (P : Txn V → Prop) : CSt V → Prop
  | .over => True
  | .locking held m rest t k => held ++ m :: rest = t.locks ∧ P t ∧ ∀ v, (k v).All P
  | .body t b k => b.Within t.locks ∧ P t ∧ ∀ v, (k v).All P
  | .unlocking u us c => (u :: us).Nodup ∧ c.All P

variable {P : Txn V → Prop} (hP : ∀ t, P t → t.Ok)
include hP

theorem lockFrom_ok {held rest : List Nat} {t : Txn V} {k : V → Client V} (h : held ++ rest = t.locks) (ht : P t)
    (hk : ∀ v, (k v).All P) : (lockFrom held rest t k).Ok P := by
  cases rest with
  | nil => exact ⟨(hP t ht).within, ht, hk⟩
  | cons m rest => exact ⟨h, ht, hk⟩
theorem startAt_ok {c : Client V} (h : c.All P) : (startAt c).Ok P := by
  cases c with
  | stop => trivial
  | txn t k => exact lockFrom_ok hP rfl h.1 h.2
theorem unlockFrom_ok {us : List Nat} {c : Client V} (h : c.All P) (hu : us.Nodup) : (unlockFrom us c).Ok P := by
  cases us with
  | nil => exact startAt_ok hP h
  | cons u us => exact ⟨hu, h⟩
omit hP

/-! ### The invariant -/

/-- A goroutine that is executing a body and holds `m`. -/
def CSt.Uses (m : Nat) : CSt V → Prop
  | .body t _ _ => m ∈ t.locks
  | _ => False

structure Inv (P : Txn V → Prop) (f0 : Nat → V) (cs0 : List (Client V)) (cl : List (CSt V)) (n : Nat) (com : Nat → V)
    (s : Config V (Nat × V)) (tr : List (Nat × V)) : Prop where
  procs : s.procs = goAll ((cl.mapIdx CSt.proc).drop n) .done :: (cl.mapIdx CSt.proc).take n
  alive : s.crashed = false
  chans : s.chans = []
  locks : ∀ m, s.locks m = true ↔ ∃ (j : Nat) (c : CSt V), cl[j]? = some c ∧ m ∈ c.held
  unique : ∀ (i j : Nat) (c d : CSt V) (m : Nat), cl[i]? = some c → cl[j]? = some d → m ∈ c.held → m ∈ d.held → i = j
  ok : ∀ (i : Nat) (c : CSt V), cl[i]? = some c → c.Ok P
  mem : ∀ m, (∀ (j : Nat) (c : CSt V), cl[j]? = some c → ¬ c.Uses m) → s.vars m = com m
  bodies : ∀ (j : Nat) (t : Txn V) (b : Body V) (k : V → Client V), cl[j]? = some (.body t b k) →
    (b.run s.vars).1 = (t.body.run com).1 ∧ ∀ m ∈ t.locks, (b.run s.vars).2 m = (t.body.run com).2 m
  serial : Serial cs0 f0 tr (cl.map CSt.left) com

theorem get_set {cl : List (CSt V)} {i j : Nat} {c' d : CSt V} (h : (cl.set i c')[j]? = some d) :
    (j = i ∧ d = c') ∨ (j ≠ i ∧ cl[j]? = some d) := by
  by_cases e : j = i
  · subst e
    rw [List.getElem?_set_self'] at h
    cases hc : cl[j]? with
    | none => rw [hc] at h; cases h
    | some c => rw [hc] at h; cases h; exact .inl ⟨rfl, rfl⟩
  · rw [List.getElem?_set_ne (Ne.symm e)] at h
    exact .inr ⟨e, h⟩

theorem set_get {cl : List (CSt V)} {i : Nat} {c c' : CSt V} (h : cl[i]? = some c) : (cl.set i c')[i]? = some c' := by
  rw [List.getElem?_set_self', h]; rfl

theorem set_left {cl : List (CSt V)} {i : Nat} {c c' : CSt V} (h : cl[i]? = some c) (e : c'.left = c.left) :
    (cl.set i c').map CSt.left = cl.map CSt.left := by
  apply List.ext_getElem?
  intro j
  rw [List.getElem?_map, List.getElem?_map]
  by_cases hj : j = i
  · subst hj; rw [set_get h, h]; simp only [Option.map_some, e]
  · rw [List.getElem?_set_ne (Ne.symm hj)]

theorem mapIdx_set (g : Nat → CSt V → Proc V (Nat × V)) (cl : List (CSt V)) (i : Nat) (c : CSt V) :
    (cl.set i c).mapIdx g = (cl.mapIdx g).set i (g i c) := by
  apply List.ext_getElem?
  intro j
  rw [List.getElem?_mapIdx]
  by_cases hj : j = i
  · subst hj
    rw [List.getElem?_set_self', List.getElem?_set_self', List.getElem?_mapIdx]
    cases cl[j]? <;> rfl
  · rw [List.getElem?_set_ne (Ne.symm hj), List.getElem?_set_ne (Ne.symm hj), List.getElem?_mapIdx]

section
variable {f0 : Nat → V} {cs0 : List (Client V)} {cl : List (CSt V)} {n : Nat} {com : Nat → V} {s s' : Config V (Nat × V)}
  {tr : List (Nat × V)}

/-- Who executes an instruction: nobody, main, or a goroutine that has been started. -/
theorem Inv.who (h : Inv P f0 cs0 cl n com s tr) {i : Nat} {p : Proc V (Nat × V)} (hp : s.procs[i]? = some p) :
    (i = 0 ∧ p = goAll ((cl.mapIdx CSt.proc).drop n) .done) ∨
    ∃ j c, i = j + 1 ∧ j < n ∧ cl[j]? = some c ∧ p = c.proc j := by
  rw [h.procs] at hp
  cases i with
  | zero => exact .inl ⟨rfl, by simpa using hp.symm⟩
  | succ j =>
    rw [List.getElem?_cons_succ, List.getElem?_take] at hp
    by_cases hj : j < n
    · rw [if_pos hj, List.getElem?_mapIdx] at hp
      cases hc : cl[j]? with
      | none => rw [hc] at hp; cases hp
      | some c => rw [hc] at hp; cases hp; exact .inr ⟨j, c, rfl, hj, by first | exact hc | rfl, rfl⟩
    · rw [if_neg hj] at hp; cases hp

/-- The processes after goroutine `i` has moved. -/
theorem Inv.procs_set (h : Inv P f0 cs0 cl n com s tr) {i : Nat} (hi : i < n) (c' : CSt V) :
    s.procs.set (i + 1) (c'.proc i) =
      goAll (((cl.set i c').mapIdx CSt.proc).drop n) .done :: ((cl.set i c').mapIdx CSt.proc).take n := by
  rw [h.procs, mapIdx_set, List.drop_set_of_lt hi, List.set_cons_succ, List.take_set]

/-- A move of goroutine `i`. -/
theorem Inv.moved (h : Inv P f0 cs0 cl n com s tr) {i : Nat} {c c' : CSt V} {com' : Nat → V} {tr' : List (Nat × V)} (hi : i < n)
    (hc : cl[i]? = some c) (hp : s'.procs = s.procs.set (i + 1) (c'.proc i)) (ha : s'.crashed = false) (hch : s'.chans = [])
    (hl : ∀ m, s'.locks m = true ↔ m ∈ c'.held ∨ ∃ (j : Nat) (d : CSt V), j ≠ i ∧ cl[j]? = some d ∧ m ∈ d.held)
    (hu : ∀ m ∈ c'.held, ∀ (j : Nat) (d : CSt V), j ≠ i → cl[j]? = some d → m ∉ d.held) (hok : c'.Ok P)
    (hm : ∀ m, ¬ c'.Uses m → (∀ (j : Nat) (d : CSt V), j ≠ i → cl[j]? = some d → ¬ d.Uses m) → s'.vars m = com' m)
    (hb : ∀ (t : Txn V) (b : Body V) (k : V → Client V), c' = .body t b k →
      (b.run s'.vars).1 = (t.body.run com').1 ∧ ∀ m ∈ t.locks, (b.run s'.vars).2 m = (t.body.run com').2 m)
    (hb' : ∀ (j : Nat) (t : Txn V) (b : Body V) (k : V → Client V), j ≠ i → cl[j]? = some (.body t b k) →
      (b.run s'.vars).1 = (t.body.run com').1 ∧ ∀ m ∈ t.locks, (b.run s'.vars).2 m = (t.body.run com').2 m)
    (hs : Serial cs0 f0 tr' ((cl.set i c').map CSt.left) com') : Inv P f0 cs0 (cl.set i c') n com' s' tr' where
  procs := hp.trans (h.procs_set hi _)
  alive := ha
  chans := hch
  locks := fun m => by
    rw [hl]
    constructor
    · rintro (hx | ⟨j, d, hj, hd, hx⟩)
      · exact ⟨i, c', set_get hc, hx⟩
      · exact ⟨j, d, by rw [List.getElem?_set_ne (Ne.symm hj)]; exact hd, hx⟩
    · rintro ⟨j, d, hj, hx⟩
      rcases get_set hj with ⟨_, e⟩ | ⟨hne, hd⟩
      · subst e; exact .inl hx
      · exact .inr ⟨j, d, hne, hd, hx⟩
  unique := fun j1 j2 d1 d2 m h1 h2 hm1 hm2 => by
    rcases get_set h1 with ⟨e1, e1'⟩ | ⟨n1, h1'⟩
    · rcases get_set h2 with ⟨e2, e2'⟩ | ⟨n2, h2'⟩
      · rw [e1, e2]
      · subst e1'; exact absurd hm2 (hu m hm1 j2 d2 n2 h2')
    · rcases get_set h2 with ⟨e2, e2'⟩ | ⟨n2, h2'⟩
      · subst e2'; exact absurd hm1 (hu m hm2 j1 d1 n1 h1')
      · exact h.unique _ _ d1 d2 m h1' h2' hm1 hm2
  ok := fun j d hj => by
    rcases get_set hj with ⟨_, rfl⟩ | ⟨_, hd⟩
    · exact hok
    · exact h.ok j d hd
  mem := fun m hno => hm m (hno i c' (set_get hc)) fun j d hj hd =>
    hno j d (by rw [List.getElem?_set_ne (Ne.symm hj)]; exact hd)
  bodies := fun j t b k hj => by
    rcases get_set hj with ⟨_, e⟩ | ⟨hne, hd⟩
    · exact hb t b k e.symm
    · exact hb' j t b k hne hd
  serial := hs

/-- Goroutine `i` alone holds what it holds. -/
theorem Inv.own (h : Inv P f0 cs0 cl n com s tr) {i : Nat} {c : CSt V} (hc : cl[i]? = some c) {m : Nat} (hm : m ∈ c.held) (j : Nat)
    (d : CSt V) (hj : j ≠ i) (hd : cl[j]? = some d) : m ∉ d.held :=
  fun hm' => hj (h.unique j i d c m hd hc hm' hm)

theorem Inv.locks_iff (h : Inv P f0 cs0 cl n com s tr) {i : Nat} {c : CSt V} (hc : cl[i]? = some c) (m : Nat) :
    s.locks m = true ↔ m ∈ c.held ∨ ∃ (j : Nat) (d : CSt V), j ≠ i ∧ cl[j]? = some d ∧ m ∈ d.held := by
  rw [h.locks]
  constructor
  · rintro ⟨j, d, hj, hm⟩
    by_cases e : j = i
    · subst e; rw [hc] at hj; cases hj; exact .inl hm
    · exact .inr ⟨j, d, e, hj, hm⟩
  · rintro (hm | ⟨j, d, _, hj, hm⟩)
    · exact ⟨i, c, hc, hm⟩
    · exact ⟨j, d, hj, hm⟩

theorem CSt.Uses.held {m : Nat} {c : CSt V} (h : c.Uses m) : m ∈ c.held := by
  cases c with
  | body t b k => exact h
  | _ => cases h

theorem Inv.load (h : Inv P f0 cs0 cl n com s tr) {i m : Nat} {t : Txn V} {b : V → Body V} {k : V → Client V} (hi : i < n)
    (hc : cl[i]? = some (.body t (.get m b) k)) :
    Inv P f0 cs0 (cl.set i (.body t (b (s.vars m)) k)) n com (s.to (i + 1) ((CSt.body t (b (s.vars m)) k).proc i)) tr := by
  have ok := h.ok _ _ hc
  have hl := h.locks_iff hc
  refine h.moved hi hc rfl h.alive h.chans hl (fun m hm => h.own hc (show m ∈ t.locks from hm)) ⟨ok.1.2 _, ok.2⟩ ?_ ?_ ?_ ?_
  · intro m' hu hno
    refine h.mem m' fun j d hd => ?_
    by_cases e : j = i
    · subst e; rw [hc] at hd; cases hd; exact hu
    · exact hno j d e hd
  · intro t' b' k' e
    cases e
    have := h.bodies _ _ _ _ hc
    exact this
  · intro j t' b' k' _ hd
    exact h.bodies _ _ _ _ hd
  · rw [set_left hc (c' := .body t (b (s.vars m)) k) rfl]; exact h.serial

theorem Inv.store (h : Inv P f0 cs0 cl n com s tr) {i m : Nat} {v : V} {t : Txn V} {b : Body V} {k : V → Client V} (hi : i < n)
    (hc : cl[i]? = some (.body t (.put m v b) k)) :
    Inv P f0 cs0 (cl.set i (.body t b k)) n com { s.to (i + 1) ((CSt.body t b k).proc i) with vars := upd s.vars m v } tr := by
  have ok := h.ok _ _ hc
  have hl := h.locks_iff hc
  refine h.moved hi hc rfl h.alive h.chans hl (fun m hm => h.own hc (show m ∈ t.locks from hm)) ⟨ok.1.2, ok.2⟩ ?_ ?_ ?_ ?_
  · intro m' hu hno
    have hne : m' ≠ m := fun e => hu (e ▸ ok.1.1)
    show upd s.vars m v m' = _
    rw [upd, if_neg hne]
    refine h.mem m' fun j d hd => ?_
    by_cases e : j = i
    · subst e; rw [hc] at hd; cases hd; exact hu
    · exact hno j d e hd
  · intro t' b' k' e
    cases e
    have := h.bodies _ _ _ _ hc
    exact this
  · intro j t' b' k' hj hd
    obtain ⟨e1, e2⟩ := h.bodies _ _ _ _ hd
    have hno : m ∉ t'.locks := h.own hc (show m ∈ t.locks from ok.1.1) j _ hj hd
    obtain ⟨f1, f2⟩ := b'.run_congr (upd s.vars m v) s.vars (h.ok _ _ hd).1 (fun x hx => by
      have : x ≠ m := fun e => hno (e ▸ hx)
      rw [upd, if_neg this])
    exact ⟨f1.trans e1, fun x hx => (f2 x hx).trans (e2 x hx)⟩
  · rw [set_left hc (c' := .body t b k) rfl]; exact h.serial

theorem Inv.lock (hP : ∀ t, P t → t.Ok) (h : Inv P f0 cs0 cl n com s tr) {i m : Nat} {held rest : List Nat} {t : Txn V}
    {k : V → Client V} (hi : i < n) (hc : cl[i]? = some (.locking held m rest t k)) (hf : s.locks m = false) :
    Inv P f0 cs0 (cl.set i (lockFrom (held ++ [m]) rest t k)) n com
      { s.to (i + 1) ((lockFrom (held ++ [m]) rest t k).proc i) with locks := upd s.locks m true } tr := by
  obtain ⟨hlk, ht, hk⟩ := h.ok _ _ hc
  have hlk' : (held ++ [m]) ++ rest = t.locks := by rw [← hlk]; simp
  have hh := lockFrom_held hlk' k
  have free : ∀ (j : Nat) (d : CSt V), cl[j]? = some d → m ∉ d.held := by
    intro j d hd hm
    have := (h.locks m).2 ⟨j, d, hd, hm⟩
    rw [hf] at this; cases this
  have own : ∀ m' ∈ held ++ [m], ∀ (j : Nat) (d : CSt V), j ≠ i → cl[j]? = some d → m' ∉ d.held := by
    intro m' hm' j d hj hd
    rcases List.mem_append.1 hm' with hm' | hm'
    · exact h.own hc hm' j d hj hd
    · rw [List.mem_singleton] at hm'; subst hm'; exact free j d hd
  refine h.moved hi hc rfl h.alive h.chans ?_ (by rw [hh]; exact own) (lockFrom_ok hP hlk' ht hk) ?_ ?_ ?_ ?_
  · intro m'
    show upd s.locks m true m' = true ↔ _
    rw [hh, upd]
    by_cases e : m' = m
    · rw [if_pos e]; simp [e]
    · rw [if_neg e, h.locks_iff hc]
      simp [CSt.held, e]
  · intro m' _ hno
    refine h.mem m' fun j d hd => ?_
    by_cases e : j = i
    · subst e; rw [hc] at hd; cases hd; exact fun x => x
    · exact hno j d e hd
  · intro t' b' k' e
    have : rest = [] ∧ t' = t ∧ b' = t.body := by
      cases rest with
      | nil => cases e; exact ⟨rfl, rfl, rfl⟩
      | cons a r => cases e
    obtain ⟨rfl, rfl, rfl⟩ := this
    refine t'.body.run_congr (ms := t'.locks) _ _ (hP _ ht).within fun m' hm' => ?_
    refine h.mem m' fun j d hd hu => ?_
    by_cases e : j = i
    · subst e; rw [hc] at hd; cases hd; exact hu
    · rw [List.append_nil] at hlk'
      exact own m' (by rw [hlk']; exact hm') j d e hd hu.held
  · intro j t' b' k' _ hd
    exact h.bodies _ _ _ _ hd
  · rw [set_left hc (lockFrom_left ..)]; exact h.serial

theorem Inv.unlock (hP : ∀ t, P t → t.Ok) (h : Inv P f0 cs0 cl n com s tr) {i u : Nat} {us : List Nat} {c : Client V} (hi : i < n)
    (hc : cl[i]? = some (.unlocking u us c)) :
    Inv P f0 cs0 (cl.set i (unlockFrom us c)) n com
      { s.to (i + 1) ((unlockFrom us c).proc i) with locks := upd s.locks u false } tr := by
  obtain ⟨hnd, hall⟩ := h.ok _ _ hc
  rw [List.nodup_cons] at hnd
  have hh := unlockFrom_held us c
  have own : ∀ m' ∈ u :: us, ∀ (j : Nat) (d : CSt V), j ≠ i → cl[j]? = some d → m' ∉ d.held := fun m' hm' => h.own hc hm'
  refine h.moved hi hc rfl h.alive h.chans ?_ (by rw [hh]; exact fun m hm => own m (List.mem_cons_of_mem _ hm))
    (unlockFrom_ok hP hall hnd.2) ?_ ?_ ?_ ?_
  · intro m'
    show upd s.locks u false m' = true ↔ _
    rw [hh, upd]
    by_cases e : m' = u
    · subst e
      rw [if_pos rfl]
      constructor
      · intro h; cases h
      · rintro (hm | ⟨j, d, hj, hd, hm⟩)
        · exact absurd hm hnd.1
        · exact absurd hm (own m' (List.mem_cons_self ..) j d hj hd)
    · rw [if_neg e, h.locks_iff hc]
      simp [CSt.held, e]
  · intro m' _ hno
    refine h.mem m' fun j d hd => ?_
    by_cases e : j = i
    · subst e; rw [hc] at hd; cases hd; exact fun x => x
    · exact hno j d e hd
  · intro t' b' k' e
    -- a transaction without locks begins
    have : t'.locks = [] ∧ b' = t'.body ∧ P t' := by
      cases us with
      | cons a r => cases e
      | nil =>
        cases c with
        | stop => cases e
        | txn t k =>
          have e' : lockFrom [] t.locks t k = .body t' b' k' := e
          cases hl : t.locks with
          | nil => rw [hl] at e'; cases e'; exact ⟨hl, rfl, hall.1⟩
          | cons a r => rw [hl] at e'; cases e'
    obtain ⟨h1, rfl, h3⟩ := this
    refine t'.body.run_congr (ms := t'.locks) _ _ (hP _ h3).within fun m' hm' => ?_
    rw [h1] at hm'; cases hm'
  · intro j t' b' k' _ hd
    exact h.bodies _ _ _ _ hd
  · rw [set_left hc (unlockFrom_left us c)]; exact h.serial

theorem Inv.commit (hP : ∀ t, P t → t.Ok) (h : Inv P f0 cs0 cl n com s tr) {i : Nat} {v : V} {t : Txn V} {k : V → Client V}
    (hi : i < n) (hc : cl[i]? = some (.body t (.ret v) k)) :
    Inv P f0 cs0 (cl.set i (unlockFrom t.unlocks (k v))) n (t.body.run com).2
      (s.to (i + 1) ((unlockFrom t.unlocks (k v)).proc i)) (tr ++ [(i, v)]) := by
  obtain ⟨_, ht, hk⟩ := h.ok _ _ hc
  have hT := hP t ht
  have hh := unlockFrom_held t.unlocks (k v)
  obtain ⟨e1, e2⟩ := h.bodies _ _ _ _ hc
  have e1' : v = (t.body.run com).1 := e1
  have own : ∀ m' ∈ t.locks, ∀ (j : Nat) (d : CSt V), j ≠ i → cl[j]? = some d → m' ∉ d.held := fun m' hm' => h.own hc hm'
  refine h.moved hi hc rfl h.alive h.chans ?_ (by rw [hh]; exact fun m hm => own m (hT.unlocks.mem_iff.1 hm))
    (unlockFrom_ok hP (hk v) (hT.unlocks.nodup_iff.2 hT.nodup)) ?_ ?_ ?_ ?_
  · intro m'
    show s.locks m' = true ↔ _
    rw [hh, h.locks_iff hc, hT.unlocks.mem_iff]
    rfl
  · intro m' _ hno
    show s.vars m' = _
    by_cases hm : m' ∈ t.locks
    · exact e2 m' hm
    · rw [t.body.run_frame hm com hT.within]
      refine h.mem m' fun j d hd => ?_
      by_cases e : j = i
      · subst e; rw [hc] at hd; cases hd; exact hm
      · exact hno j d e hd
  · intro t' b' k' e
    have : t'.locks = [] ∧ b' = t'.body ∧ P t' := by
      cases hus : t.unlocks with
      | cons a r => rw [hus] at e; cases e
      | nil =>
        rw [hus] at e
        have hkv := hk v
        cases hkc : k v with
        | stop => rw [hkc] at e; cases e
        | txn t1 k1 =>
          rw [hkc] at e hkv
          have e' : lockFrom [] t1.locks t1 k1 = .body t' b' k' := e
          cases hl : t1.locks with
          | nil => rw [hl] at e'; cases e'; exact ⟨hl, rfl, hkv.1⟩
          | cons a r => rw [hl] at e'; cases e'
    obtain ⟨h1, rfl, h3⟩ := this
    refine t'.body.run_congr (ms := t'.locks) _ _ (hP _ h3).within fun m' hm' => ?_
    rw [h1] at hm'; cases hm'
  · intro j t' b' k' hj hd
    obtain ⟨g1, g2⟩ := h.bodies _ _ _ _ hd
    have hok := h.ok _ _ hd
    obtain ⟨f1, f2⟩ := t'.body.run_congr (ms := t'.locks) (t.body.run com).2 com (hP _ hok.2.1).within (fun x hx => by
      refine t.body.run_frame (fun hx' => ?_) com hT.within
      exact own x hx' j _ hj hd hx)
    exact ⟨g1.trans f1.symm, fun x hx => (g2 x hx).trans (f2 x hx).symm⟩
  · have hl : (cl.map CSt.left)[i]? = some (.txn t k) := by rw [List.getElem?_map, hc]; rfl
    have := Serial.step h.serial hl
    rw [← e1'] at this
    have hset : (cl.set i (unlockFrom t.unlocks (k v))).map CSt.left = (cl.map CSt.left).set i (k v) := by
      rw [List.map_set, unlockFrom_left]
    rw [hset]
    exact this

/-! ### Steps -/

/-- The moves of a goroutine. -/
inductive Next : CSt V → CSt V → Prop
  | lock {held m rest t k} : Next (lockFrom (held ++ [m]) rest t k) (.locking held m rest t k)
  | load {t m b k} (x : V) : Next (.body t (b x) k) (.body t (.get m b) k)
  | store {t m v b k} : Next (.body t b k) (.body t (.put m v b) k)
  | commit {t v k} : Next (unlockFrom t.unlocks (k v)) (.body t (.ret v) k)
  | unlock {u us c} : Next (unlockFrom us c) (.unlocking u us c)

/-- The moves of the program. -/
inductive Moves : List (CSt V) × Nat → List (CSt V) × Nat → Prop
  | main {l : List (CSt V)} {k : Nat} (h : k < l.length) : Moves (l, k + 1) (l, k)
  | client {l : List (CSt V)} {k i : Nat} {c c' : CSt V} (h : l[i]? = some c) (hn : Next c' c) : Moves (l.set i c', k) (l, k)

/-- The next instruction of a goroutine. -/
inductive Instr (j : Nat) : CSt V → Proc V (Nat × V) → Prop
  | over : Instr j .over .done
  | lock {held m rest t k} : Instr j (.locking held m rest t k) (.lock m ((lockFrom (held ++ [m]) rest t k).proc j))
  | load {t m b k} : Instr j (.body t (.get m b) k) (.load m fun x => (CSt.body t (b x) k).proc j)
  | store {t m v b k} : Instr j (.body t (.put m v b) k) (.store m v ((CSt.body t b k).proc j))
  | commit {t v k} : Instr j (.body t (.ret v) k) (.emit (j, v) ((unlockFrom t.unlocks (k v)).proc j))
  | unlock {u us c} : Instr j (.unlocking u us c) (.unlock u ((unlockFrom us c).proc j))

theorem instr (j : Nat) (c : CSt V) : Instr j c (c.proc j) := by
  cases c with
  | over => exact .over
  | locking held m rest t k =>
    have e : (CSt.locking held m rest t k).proc j = .lock m ((lockFrom (held ++ [m]) rest t k).proc j) := by
      rw [lockFrom_proc]
      exact lockAll_cons ..
    rw [e]
    exact .lock
  | body t b k =>
    cases b with
    | ret v =>
      have e : (CSt.body t (.ret v) k).proc j = .emit (j, v) ((unlockFrom t.unlocks (k v)).proc j) := by
        rw [unlockFrom_proc]
        rfl
      rw [e]
      exact .commit
    | get m b => exact .load
    | put m v b => exact .store
  | unlocking u us c =>
    have e : (CSt.unlocking u us c).proc j = .unlock u ((unlockFrom us c).proc j) := by
      rw [unlockFrom_proc]
      rfl
    rw [e]
    exact .unlock

theorem main_instr (cl : List (CSt V)) (n : Nat) :
    (cl.length ≤ n ∧ goAll ((cl.mapIdx CSt.proc).drop n) .done = .done) ∨
    ∃ c, n < cl.length ∧ cl[n]? = some c ∧
      goAll ((cl.mapIdx CSt.proc).drop n) .done = .go (c.proc n) (goAll ((cl.mapIdx CSt.proc).drop (n + 1)) .done) := by
  by_cases h : n < cl.length
  · refine .inr ⟨cl[n], h, List.getElem?_eq_getElem h, ?_⟩
    have h' : n < (cl.mapIdx CSt.proc).length := by simpa using h
    rw [List.drop_eq_getElem_cons h', List.getElem_mapIdx]
    rfl
  · have h' : cl.length ≤ n := Nat.le_of_not_lt h
    exact .inl ⟨h', by rw [List.drop_eq_nil_of_le (by simpa using h')]; rfl⟩

/-- main starts another goroutine. -/
theorem Inv.go (h : Inv P f0 cs0 cl n com s tr) {c : CSt V} (hc : cl[n]? = some c) :
    Inv P f0 cs0 cl (n + 1) com
      { s with procs := s.procs.set 0 (goAll ((cl.mapIdx CSt.proc).drop (n + 1)) .done) ++ [c.proc n] } tr where
  procs := by
    have e : (cl.mapIdx CSt.proc)[n]? = some (c.proc n) := by rw [List.getElem?_mapIdx, hc]; rfl
    rw [List.take_add_one, e, h.procs]
    rfl
  alive := h.alive
  chans := h.chans
  locks := h.locks
  unique := h.unique
  ok := h.ok
  mem := h.mem
  bodies := h.bodies
  serial := h.serial

theorem Inv.held_locked (h : Inv P f0 cs0 cl n com s tr) {i u : Nat} {us : List Nat} {c : Client V}
    (hc : cl[i]? = some (.unlocking u us c)) : s.locks u = true :=
  (h.locks u).2 ⟨i, _, hc, List.mem_cons_self ..⟩

theorem Inv.step (hP : ∀ t, P t → t.Ok) (h : Inv P f0 cs0 cl n com s tr) {e : Option (Nat × V)} (st : Step s e s') :
    ∃ cl' n' com', Inv P f0 cs0 cl' n' com' s' (tr ++ e.toList) ∧ Moves (cl', n') (cl, n) := by
  have nochan : ∀ {c : Nat} {ch : Chan V}, s.chans[c]? = some ch → False := by
    intro c ch hc; rw [h.chans] at hc; simp at hc
  -- the instruction is main's or that of a goroutine
  have who : ∀ {i : Nat} {p : Proc V (Nat × V)}, s.procs[i]? = some p → p ≠ .done →
      (∃ c, i = 0 ∧ n < cl.length ∧ cl[n]? = some c ∧ p = .go (c.proc n) (goAll ((cl.mapIdx CSt.proc).drop (n + 1)) .done)) ∨
      ∃ j c, i = j + 1 ∧ j < n ∧ cl[j]? = some c ∧ Instr j c p := by
    intro i p hp hne
    rcases h.who hp with ⟨hi, e⟩ | ⟨j, c, hi, hj, hc, e⟩
    · rcases main_instr cl n with ⟨_, e'⟩ | ⟨c, h1, h2, e'⟩
      · exact absurd (e.trans e') hne
      · exact .inl ⟨c, hi, h1, h2, e.trans e'⟩
    · exact .inr ⟨j, c, hi, hj, hc, by rw [e]; exact instr j c⟩
  cases st with
  | emit hc hp =>
    rcases who hp (by intro e; cases e) with ⟨c, _, _, _, e⟩ | ⟨j, c, rfl, hj, hcl, hin⟩
    · cases e
    · cases hin with
      | commit => exact ⟨_, _, _, h.commit hP hj hcl, .client hcl .commit⟩
  | go hc hp =>
    rcases who hp (by intro e; cases e) with ⟨c, rfl, hn, hcn, e⟩ | ⟨j, c, rfl, hj, hcl, hin⟩
    · cases e
      exact ⟨_, _, _, by simpa using h.go hcn, .main hn⟩
    · cases hin
  | lock hc hp hl =>
    rcases who hp (by intro e; cases e) with ⟨c, _, _, _, e⟩ | ⟨j, c, rfl, hj, hcl, hin⟩
    · cases e
    · cases hin with
      | lock => exact ⟨_, _, _, by simpa using h.lock hP hj hcl hl, .client hcl .lock⟩
  | unlock hc hp hl =>
    rcases who hp (by intro e; cases e) with ⟨c, _, _, _, e⟩ | ⟨j, c, rfl, hj, hcl, hin⟩
    · cases e
    · cases hin with
      | unlock => exact ⟨_, _, _, by simpa using h.unlock hP hj hcl, .client hcl .unlock⟩
  | unlockFree hc hp hl =>
    rcases who hp (by intro e; cases e) with ⟨c, _, _, _, e⟩ | ⟨j, c, rfl, hj, hcl, hin⟩
    · cases e
    · cases hin with
      | unlock => rw [h.held_locked hcl] at hl; cases hl
  | load hc hp =>
    rcases who hp (by intro e; cases e) with ⟨c, _, _, _, e⟩ | ⟨j, c, rfl, hj, hcl, hin⟩
    · cases e
    · cases hin with
      | load => exact ⟨_, _, _, by simpa using h.load hj hcl, .client hcl (.load _)⟩
  | store hc hp =>
    rcases who hp (by intro e; cases e) with ⟨c, _, _, _, e⟩ | ⟨j, c, rfl, hj, hcl, hin⟩
    · cases e
    · cases hin with
      | store => exact ⟨_, _, _, by simpa using h.store hj hcl, .client hcl .store⟩
  | tau hc hp | make hc hp | tryLock hc hp _ | tryLockFails hc hp _ =>
    rcases who hp (by intro e; cases e) with ⟨c, _, _, _, e⟩ | ⟨j, c, rfl, hj, hcl, hin⟩
    · cases e
    · cases hin
  | park hc _ hch _ => exact (nochan hch).elim
  | sendBuf hc _ hch _ _ => exact (nochan hch).elim
  | sendClosed hc _ hch _ => exact (nochan hch).elim
  | meet hc _ _ hch _ _ => exact (nochan hch).elim
  | meetPoll hc _ _ hch _ _ => exact (nochan hch).elim
  | recvBuf hc _ hch _ => exact (nochan hch).elim
  | pollBuf hc _ hch _ => exact (nochan hch).elim
  | recvClosed hc _ hch _ _ => exact (nochan hch).elim
  | pollClosed hc _ hch _ _ => exact (nochan hch).elim
  | pollDefault hc _ hch _ _ _ => exact (nochan hch).elim
  | close hc _ hch _ => exact (nochan hch).elim
  | closeClosed hc _ hch _ => exact (nochan hch).elim

/-! ### No deadlock -/

theorem get_proc (h : Inv P f0 cs0 cl n com s tr) {j : Nat} {c : CSt V} (hj : j < n) (hc : cl[j]? = some c) :
    s.procs[j + 1]? = some (c.proc j) := by
  rw [h.procs, List.getElem?_cons_succ, List.getElem?_take, if_pos hj, List.getElem?_mapIdx, hc]
  rfl

/-- The rank of the Mutex a goroutine waits for. -/
def CSt.waits (rank : Nat → Nat) : CSt V → Nat
  | .locking _ m _ _ _ => rank m
  | _ => 0

theorem waits_le {rank : Nat → Nat} {cl : List (CSt V)} {j : Nat} {c : CSt V} (h : cl[j]? = some c) : c.waits rank ≤ (cl.map (CSt.waits rank)).sum := by
  induction cl generalizing j with
  | nil => simp at h
  | cons a l ih =>
    rw [List.map_cons, List.sum_cons]
    cases j with
    | zero => simp only [List.getElem?_cons_zero, Option.some.injEq] at h; subst h; omega
    | succ j => have := ih (j := j) (by simpa using h); omega

theorem Inv.stopped {rank : Nat → Nat} (hA : ∀ t, P t → t.Ordered rank) (h : Inv P f0 cs0 cl n com s tr) (hn : ∀ e s', ¬ Step s e s') :
    cl.length ≤ n ∧ ∀ (j : Nat) (c : CSt V), cl[j]? = some c → c = .over := by
  have hlen : cl.length ≤ n := by
    rcases main_instr cl n with ⟨hl, _⟩ | ⟨c, h1, h2, e⟩
    · exact hl
    · exact absurd (Step.go h.alive (i := 0) (by rw [h.procs, e]; rfl)) (hn _ _)
  have lt : ∀ {j : Nat} {c : CSt V}, cl[j]? = some c → j < n := by
    intro j c hc
    have := (List.getElem?_eq_some_iff.1 hc).1
    omega
  -- who is not over waits for a Mutex that is locked
  have wait : ∀ {j : Nat} {c : CSt V}, cl[j]? = some c → c = .over ∨
      ∃ held m rest t k, c = .locking held m rest t k ∧ s.locks m = true := by
    intro j c hc
    have hp := get_proc h (lt hc) hc
    have hi := instr j c
    cases hi' : c with
    | over => exact .inl rfl
    | locking held m rest t k =>
      refine .inr ⟨held, m, rest, t, k, rfl, ?_⟩
      cases hl : s.locks m with
      | true => rfl
      | false =>
        subst hi'
        cases hpr : (CSt.locking held m rest t k).proc j <;> rw [hpr] at hi hp <;> cases hi
        exact absurd (Step.lock h.alive hp hl) (hn _ _)
    | body t b k =>
      exfalso
      subst hi'
      cases hpr : (CSt.body t b k).proc j <;> rw [hpr] at hi hp <;> cases hi
      · exact hn _ _ (Step.emit h.alive hp)
      · exact hn _ _ (Step.load h.alive hp)
      · exact hn _ _ (Step.store h.alive hp)
    | unlocking u us d =>
      exfalso
      subst hi'
      cases hpr : (CSt.unlocking u us d).proc j <;> rw [hpr] at hi hp <;> cases hi
      exact hn _ _ (Step.unlock h.alive hp (h.held_locked hc))
  -- the holder of that Mutex waits for a greater one
  have climb : ∀ (d : Nat) {j : Nat} {held rest : List Nat} {m : Nat} {t : Txn V} {k : V → Client V},
      cl[j]? = some (.locking held m rest t k) → (cl.map (CSt.waits rank)).sum - rank m ≤ d → False := by
    intro d
    induction d with
    | zero =>
      intro j held rest m t k hc hd
      rcases wait hc with e | ⟨_, _, _, _, _, e, hl⟩
      · cases e
      · cases e
        obtain ⟨j', c', hc', hm⟩ := (h.locks m).1 hl
        rcases wait hc' with e | ⟨held', m', rest', t', k', e, _⟩
        · subst e; cases hm
        · subst e
          obtain ⟨h1, h2, _⟩ := h.ok _ _ hc'
          have ha := hA _ h2
          rw [Txn.Ordered, ← h1, List.pairwise_append] at ha
          have := ha.2.2 m hm m' (List.mem_cons_self ..)
          have := waits_le (rank := rank) hc'
          simp only [CSt.waits] at this
          omega
    | succ d ih =>
      intro j held rest m t k hc hd
      rcases wait hc with e | ⟨_, _, _, _, _, e, hl⟩
      · cases e
      · cases e
        obtain ⟨j', c', hc', hm⟩ := (h.locks m).1 hl
        rcases wait hc' with e | ⟨held', m', rest', t', k', e, _⟩
        · subst e; cases hm
        · subst e
          obtain ⟨h1, h2, _⟩ := h.ok _ _ hc'
          have ha := hA _ h2
          rw [Txn.Ordered, ← h1, List.pairwise_append] at ha
          have := ha.2.2 m hm m' (List.mem_cons_self ..)
          have := waits_le (rank := rank) hc'
          simp only [CSt.waits] at this
          exact ih hc' (by omega)
  refine ⟨hlen, fun j c hc => ?_⟩
  rcases wait hc with e | ⟨held, m, rest, t, k, e, _⟩
  · exact e
  · subst e; exact (climb _ hc (Nat.le_refl _)).elim
end

/-! ### Termination -/

theorem next_acc : ∀ c : Client V, Acc Next (startAt c) := by
  have unl : ∀ (us : List Nat) (c : Client V), Acc Next (startAt c) → Acc Next (unlockFrom us c) := by
    intro us c hc
    induction us with
    | nil => exact hc
    | cons u us ih => exact ⟨_, fun y hy => by cases hy; exact ih⟩
  have bod : ∀ (t : Txn V) (k : V → Client V), (∀ v, Acc Next (startAt (k v))) → ∀ b : Body V, Acc Next (CSt.body t b k) := by
    intro t k hk b
    induction b with
    | ret v => exact ⟨_, fun y hy => by cases hy; exact unl _ _ (hk v)⟩
    | get m b ih => exact ⟨_, fun y hy => by cases hy with | load x => exact ih x⟩
    | put m v b ih => exact ⟨_, fun y hy => by cases hy; exact ih⟩
  have loc : ∀ (t : Txn V) (k : V → Client V), (∀ v, Acc Next (startAt (k v))) → ∀ (rest held : List Nat),
      Acc Next (lockFrom held rest t k) := by
    intro t k hk rest
    induction rest with
    | nil => intro held; exact bod t k hk t.body
    | cons m rest ih => intro held; exact ⟨_, fun y hy => by cases hy; exact ih _⟩
  intro c
  induction c with
  | stop => exact ⟨_, fun y hy => by cases hy⟩
  | txn t k ih => exact loc t k ih t.locks []

/-- One of the goroutines moves. -/
def ListNext (l' l : List (CSt V)) : Prop := ∃ (i : Nat) (c c' : CSt V), l[i]? = some c ∧ Next c' c ∧ l' = l.set i c'

theorem listNext_cons {a : CSt V} (ha : Acc Next a) : ∀ {l : List (CSt V)}, Acc ListNext l → Acc ListNext (a :: l) := by
  induction ha with
  | intro a ha iha =>
    intro l hl
    induction hl with
    | intro l hl ihl =>
      refine ⟨_, ?_⟩
      rintro y ⟨i, c, c', hi, hn, rfl⟩
      cases i with
      | zero =>
        simp only [List.getElem?_cons_zero, Option.some.injEq] at hi
        subst hi
        exact iha c' hn ⟨_, hl⟩
      | succ i => exact ihl _ ⟨i, c, c', by simpa using hi, hn, rfl⟩

theorem listNext_acc : ∀ (l : List (CSt V)), (∀ c ∈ l, Acc Next c) → Acc ListNext l
  | [], _ => ⟨_, by rintro y ⟨i, c, c', hi, _⟩; simp at hi⟩
  | a :: l, h => listNext_cons (h a (List.mem_cons_self ..)) (listNext_acc l fun c hc => h c (List.mem_cons_of_mem _ hc))

theorem moves_acc {cl : List (CSt V)} (h : Acc ListNext cl) : ∀ n, Acc Moves (cl, n) := by
  induction h with
  | intro cl hcl ih =>
    have down : ∀ d n, cl.length - n ≤ d → Acc Moves (cl, n) := by
      intro d
      induction d with
      | zero =>
        intro n hd
        refine ⟨_, fun y hy => ?_⟩
        cases hy with
        | main h => omega
        | client h hn => exact ih _ ⟨_, _, _, h, hn, rfl⟩ n
      | succ d ihd =>
        intro n hd
        refine ⟨_, fun y hy => ?_⟩
        cases hy with
        | main h => exact ihd (n + 1) (by omega)
        | client h hn => exact ih _ ⟨_, _, _, h, hn, rfl⟩ n
    exact fun n => down _ n (Nat.le_refl _)

/-! ### Executions -/

theorem startAt_body {c : Client V} {t : Txn V} {b : Body V} {k : V → Client V} (h : startAt c = .body t b k) : b = t.body := by
  cases c with
  | stop => cases h
  | txn t1 k1 =>
    have e' : lockFrom [] t1.locks t1 k1 = .body t b k := h
    cases hl : t1.locks with
    | nil => rw [hl] at e'; cases e'; rfl
    | cons a r => rw [hl] at e'; cases e'

theorem initial (hP : ∀ t, P t → t.Ok) (f : Nat → V) {cs : List (Client V)} (hcs : ∀ c ∈ cs, c.All P) :
    Inv P f cs (cs.map startAt) 0 f (program f cs) [] where
  procs := by
    have e : (cs.map startAt).mapIdx CSt.proc = cs.mapIdx Client.proc := by
      apply List.ext_getElem?
      intro j
      rw [List.getElem?_mapIdx, List.getElem?_mapIdx, List.getElem?_map, Option.map_map]
      cases cs[j]? with
      | none => rfl
      | some c => simp only [Option.map_some, Function.comp, startAt_proc]
    rw [e]
    rfl
  alive := rfl
  chans := rfl
  locks := fun m => by
    constructor
    · intro h; cases h
    · rintro ⟨j, c, hj, hm⟩
      rw [List.getElem?_map] at hj
      cases hc : cs[j]? with
      | none => rw [hc] at hj; cases hj
      | some d => rw [hc] at hj; cases hj; rw [startAt_held] at hm; cases hm
  unique := fun i j c d m hi _ hm _ => by
    rw [List.getElem?_map] at hi
    cases hc : cs[i]? with
    | none => rw [hc] at hi; cases hi
    | some d => rw [hc] at hi; cases hi; rw [startAt_held] at hm; cases hm
  ok := fun i c hi => by
    rw [List.getElem?_map] at hi
    cases hc : cs[i]? with
    | none => rw [hc] at hi; cases hi
    | some d => rw [hc] at hi; cases hi; exact startAt_ok hP (hcs d (List.mem_of_getElem? hc))
  mem := fun m _ => rfl
  bodies := fun j t b k hj => by
    rw [List.getElem?_map] at hj
    cases hc : cs[j]? with
    | none => rw [hc] at hj; cases hj
    | some d =>
      rw [hc] at hj
      have := startAt_body (Option.some.inj hj)
      subst this
      exact ⟨rfl, fun _ _ => rfl⟩
  serial := by
    have e : (cs.map startAt).map CSt.left = cs := by
      rw [List.map_map]
      conv => rhs; rw [← List.map_id cs]
      exact List.map_congr_left fun c _ => startAt_left c
    rw [e]
    exact .nil _ _

theorem run_inv (hP : ∀ t, P t → t.Ok) {f : Nat → V} {cs : List (Client V)} (hcs : ∀ c ∈ cs, c.All P) {tr : List (Nat × V)}
    {s : Config V (Nat × V)} (h : Run (program f cs) tr s) : ∃ cl n com, Inv P f cs cl n com s tr := by
  induction h with
  | nil => exact ⟨_, _, _, initial hP f hcs⟩
  | step r h ih =>
    obtain ⟨cl, n, com, hI⟩ := ih
    obtain ⟨cl', n', com', hI', _⟩ := hI.step hP h
    exact ⟨_, _, _, hI'⟩

/-! ### Every order of the transactions is possible -/

theorem goAll_run (ps : List (Proc V (Nat × V))) : ∀ (s : Config V (Nat × V)) (qs : List (Proc V (Nat × V))),
    s.procs = goAll ps .done :: qs → s.crashed = false → Run s [] { s with procs := .done :: (qs ++ ps) } := by
  induction ps with
  | nil =>
    intro s qs h _
    have e : { s with procs := .done :: (qs ++ []) } = s := by rw [List.append_nil]; cases s; cases h; rfl
    rw [e]
    exact .nil _
  | cons p ps ih =>
    intro s qs h hc
    have st : Step s none _ := Step.go hc (i := 0) (p := p) (k := goAll ps .done) (by rw [h]; rfl)
    have r := ih { s with procs := s.procs.set 0 (goAll ps .done) ++ [p] } (qs ++ [p]) (by rw [h]; rfl) hc
    have := (Run.one st).trans r
    simpa using this

theorem lockAll_run (i : Nat) (k : (Nat → Nat) → Proc V (Nat × V)) : ∀ (ms : List Nat) (s : Config V (Nat × V)),
    s.procs[i]? = some (lockAll ms id k) → s.crashed = false → ms.Nodup → (∀ m ∈ ms, s.locks m = false) →
    Run s [] { s with procs := s.procs.set i (k id), locks := fun m => if m ∈ ms then true else s.locks m } := by
  intro ms
  induction ms with
  | nil =>
    intro s h hc _ _
    have e : s.procs.set i (k id) = s.procs := by
      apply List.ext_getElem?
      intro j
      by_cases hj : i = j
      · subst hj; rw [List.getElem?_set_self', h]; rfl
      · rw [List.getElem?_set_ne hj]
    rw [e]
    simp only [List.not_mem_nil, if_false]
    exact .nil _
  | cons m ms ih =>
    intro s h hc hn hf
    rw [lockAll_cons] at h
    have hn' := List.nodup_cons.1 hn
    have st := Step.lock hc h (hf m (List.mem_cons_self ..))
    have r := ih { s with procs := s.procs.set i (lockAll ms id k), locks := upd s.locks m true }
      (by rw [List.getElem?_set_self', h]; rfl) hc hn'.2
      (fun x hx => by
        have : x ≠ m := fun e => hn'.1 (e ▸ hx)
        simp only [upd, if_neg this]
        exact hf x (List.mem_cons_of_mem _ hx))
    have := (Run.one st).trans r
    have e : (fun x => if x ∈ ms then true else upd s.locks m true x) = fun x => if x ∈ m :: ms then true else s.locks x := by
      funext x
      by_cases h1 : x ∈ ms
      · rw [if_pos h1, if_pos (List.mem_cons_of_mem _ h1)]
      · rw [if_neg h1]
        by_cases h2 : x = m
        · rw [if_pos (h2 ▸ List.mem_cons_self ..), upd, if_pos h2]
        · rw [if_neg (fun h => (List.mem_cons.1 h).elim h2 h1), upd, if_neg h2]
    rw [← e]
    simpa using this

theorem body_run (i : Nat) (k : V → Proc V (Nat × V)) : ∀ (b : Body V) (s : Config V (Nat × V)),
    s.procs[i]? = some (b.proc id k) → s.crashed = false →
    Run s [] { s with procs := s.procs.set i (k (b.run s.vars).1), vars := (b.run s.vars).2 } := by
  intro b
  induction b with
  | ret v =>
    intro s h hc
    have e : s.procs.set i (k v) = s.procs := by
      apply List.ext_getElem?
      intro j
      by_cases hj : i = j
      · subst hj; rw [List.getElem?_set_self', h]; rfl
      · rw [List.getElem?_set_ne hj]
    simp only [Body.run]
    rw [e]
    exact .nil _
  | get m b ih =>
    intro s h hc
    have st := Step.load hc h
    have r := ih (s.vars m) { s with procs := s.procs.set i ((b (s.vars m)).proc id k) }
      (by rw [List.getElem?_set_self', h]; rfl) hc
    simp only [List.set_set] at r
    exact (Run.one st).trans r
  | put m v b ih =>
    intro s h hc
    have st := Step.store hc h
    have r := ih { s with procs := s.procs.set i (b.proc id k), vars := upd s.vars m v }
      (by rw [List.getElem?_set_self', h]; rfl) hc
    simp only [List.set_set] at r
    exact (Run.one st).trans r

theorem unlockAll_run (i : Nat) (k : Proc V (Nat × V)) : ∀ (ms : List Nat) (s : Config V (Nat × V)),
    s.procs[i]? = some (unlockAll ms k) → s.crashed = false → ms.Nodup → (∀ m ∈ ms, s.locks m = true) →
    Run s [] { s with procs := s.procs.set i k, locks := fun m => if m ∈ ms then false else s.locks m } := by
  intro ms
  induction ms with
  | nil =>
    intro s h hc _ _
    have e : s.procs.set i k = s.procs := by
      apply List.ext_getElem?
      intro j
      by_cases hj : i = j
      · subst hj; rw [List.getElem?_set_self', h]; rfl
      · rw [List.getElem?_set_ne hj]
    rw [e]
    simp only [List.not_mem_nil, if_false]
    exact .nil _
  | cons m ms ih =>
    intro s h hc hn hf
    have hn' := List.nodup_cons.1 hn
    have h' : s.procs[i]? = some (.unlock m (unlockAll ms k)) := h
    have st := Step.unlock hc h' (hf m (List.mem_cons_self ..))
    have r := ih { s with procs := s.procs.set i (unlockAll ms k), locks := upd s.locks m false }
      (by rw [List.getElem?_set_self', h]; rfl) hc hn'.2
      (fun x hx => by
        have : x ≠ m := fun e => hn'.1 (e ▸ hx)
        simp only [upd, if_neg this]
        exact hf x (List.mem_cons_of_mem _ hx))
    have := (Run.one st).trans r
    have e : (fun x => if x ∈ ms then false else upd s.locks m false x) = fun x => if x ∈ m :: ms then false else s.locks x := by
      funext x
      by_cases h1 : x ∈ ms
      · rw [if_pos h1, if_pos (List.mem_cons_of_mem _ h1)]
      · rw [if_neg h1]
        by_cases h2 : x = m
        · rw [if_pos (h2 ▸ List.mem_cons_self ..), upd, if_pos h2]
        · rw [if_neg (fun h => (List.mem_cons.1 h).elim h2 h1), upd, if_neg h2]
    rw [← e]
    simpa using this

/-- All goroutines have been started and are between transactions. -/
def quiet (f : Nat → V) (cs : List (Client V)) : Config V (Nat × V) :=
  { procs := .done :: cs.mapIdx Client.proc, chans := [], locks := fun _ => false, vars := f, crashed := false }

theorem txn_run {f : Nat → V} {cs : List (Client V)} {i : Nat} {t : Txn V} {k : V → Client V} (ht : t.Ok)
    (hi : cs[i]? = some (.txn t k)) :
    Run (quiet f cs) [(i, (t.body.run f).1)] (quiet (t.body.run f).2 (cs.set i (k (t.body.run f).1))) := by
  have h0 : (quiet f cs).procs[i + 1]? = some (lockAll t.locks id fun p => t.body.proc p fun v => .emit (i, v) (unlockAll t.unlocks ((k v).proc i))) := by
    rw [quiet, List.getElem?_cons_succ, List.getElem?_mapIdx, hi]
    rfl
  have r1 := lockAll_run (i + 1) _ t.locks (quiet f cs) h0 rfl ht.nodup (fun _ _ => rfl)
  have r2 := body_run (i + 1) (fun v => .emit (i, v) (unlockAll t.unlocks ((k v).proc i))) t.body
    { quiet f cs with
      procs := (quiet f cs).procs.set (i + 1) (t.body.proc id fun v => .emit (i, v) (unlockAll t.unlocks ((k v).proc i))),
      locks := fun m => if m ∈ t.locks then true else false }
    (by rw [List.getElem?_set_self', h0]; rfl) rfl
  have r3 := Step.emit (s := { quiet f cs with
      procs := (quiet f cs).procs.set (i + 1) (.emit (i, (t.body.run f).1) (unlockAll t.unlocks ((k (t.body.run f).1).proc i))),
      locks := fun m => if m ∈ t.locks then true else false, vars := (t.body.run f).2 }) rfl
      (i := i + 1) (e := (i, (t.body.run f).1)) (k := unlockAll t.unlocks ((k (t.body.run f).1).proc i))
    (by rw [List.getElem?_set_self', h0]; rfl)
  have r4 := unlockAll_run (i + 1) ((k (t.body.run f).1).proc i) t.unlocks
    { quiet f cs with
      procs := (quiet f cs).procs.set (i + 1) (unlockAll t.unlocks ((k (t.body.run f).1).proc i)),
      locks := fun m => if m ∈ t.locks then true else false, vars := (t.body.run f).2 }
    (by rw [List.getElem?_set_self', h0]; rfl) rfl (ht.unlocks.nodup_iff.2 ht.nodup)
    (fun m hm => by simp only [if_pos (ht.unlocks.mem_iff.1 hm)])
  have e : (quiet (t.body.run f).2 (cs.set i (k (t.body.run f).1))) =
      { quiet f cs with
        procs := (quiet f cs).procs.set (i + 1) ((k (t.body.run f).1).proc i),
        locks := fun m => if m ∈ t.unlocks then false else if m ∈ t.locks then true else false, vars := (t.body.run f).2 } := by
    have e1 : (fun m => if m ∈ t.unlocks then false else if m ∈ t.locks then true else false) = fun _ : Nat => false := by
      funext m
      by_cases h1 : m ∈ t.unlocks
      · rw [if_pos h1]
      · rw [if_neg h1, if_neg fun h => h1 (ht.unlocks.mem_iff.2 h)]
    have e2 : (cs.set i (k (t.body.run f).1)).mapIdx Client.proc = (cs.mapIdx Client.proc).set i ((k (t.body.run f).1).proc i) := by
      apply List.ext_getElem?
      intro j
      by_cases hj : i = j
      · subst hj
        rw [List.getElem?_set_self', List.getElem?_mapIdx, List.getElem?_mapIdx, List.getElem?_set_self', hi]
        rfl
      · rw [List.getElem?_set_ne hj, List.getElem?_mapIdx, List.getElem?_mapIdx, List.getElem?_set_ne hj]
    rw [e1]
    simp only [quiet, e2, List.set_cons_succ]
  rw [e]
  have r12 := r1.trans r2
  have e3 : Run _ [(i, (t.body.run f).1)] _ := Run.one r3
  simp only [Config.to, List.set_set] at r12 e3 r4
  exact (r12.trans e3).trans r4

end Tx
open Tx
section
variable {V : Type}

/-! ### The theorems -/

/-- C157: whatever the schedule, nothing crashes, the results of the transactions are those of executing them at one stroke in the
order in which they give their results, and every Mutex that is not locked has the value it has after that. -/
theorem C157_serializable (f : Nat → V) (cs : List (Client V)) (hcs : ∀ c ∈ cs, c.All Txn.Ok) {tr : List (Nat × V)}
    {s : Config V (Nat × V)} (h : Run (program f cs) tr s) :
    s.crashed = false ∧ ∃ cs' g, Serial cs f tr cs' g ∧ ∀ m, s.locks m = false → s.vars m = g m := by
  obtain ⟨cl, n, com, hI⟩ := run_inv (fun _ h => h) hcs h
  refine ⟨hI.alive, _, _, hI.serial, fun m hm => hI.mem m fun j c hc hu => ?_⟩
  rw [(hI.locks m).2 ⟨j, c, hc, hu.held⟩] at hm
  cases hm

/-- C157: when every transaction locks its Mutexes in the order of some ranking, a state in which nothing can happen is one in
which all goroutines are through with all their transactions, and the Mutexes have the values of the serial execution. -/
theorem C157_no_deadlock (rank : Nat → Nat) (f : Nat → V) (cs : List (Client V))
    (hcs : ∀ c ∈ cs, c.All fun t => t.Ok ∧ t.Ordered rank) {tr : List (Nat × V)} {s : Config V (Nat × V)}
    (h : Run (program f cs) tr s) (hn : ∀ e s', ¬ Step s e s') :
    (∀ p ∈ s.procs, p = .done) ∧ ∃ cs', Serial cs f tr cs' s.vars ∧ ∀ c ∈ cs', c = .stop := by
  obtain ⟨cl, n, com, hI⟩ := run_inv (fun _ h => h.1) hcs h
  obtain ⟨hlen, hover⟩ := hI.stopped (rank := rank) (fun _ h => h.2) hn
  have hv : s.vars = com := by
    funext m
    refine hI.mem m fun j c hc hu => ?_
    rw [hover j c hc] at hu
    cases hu
  constructor
  · intro p hp
    obtain ⟨i, hi⟩ := List.getElem?_of_mem hp
    rcases hI.who hi with ⟨_, e⟩ | ⟨j, c, _, _, hc, e⟩
    · rcases main_instr cl n with ⟨_, e'⟩ | ⟨_, h1, _⟩
      · exact e.trans e'
      · omega
    · rw [e, hover j c hc]; rfl
  · refine ⟨_, hv ▸ hI.serial, fun c hc => ?_⟩
    obtain ⟨d, hd, rfl⟩ := List.mem_map.1 hc
    obtain ⟨j, hj⟩ := List.getElem?_of_mem hd
    rw [hover j d hj]
    rfl

/-- C157: every execution ends (in success or in a deadlock), whatever the schedule. -/
theorem C157_terminates (f : Nat → V) (cs : List (Client V)) (hcs : ∀ c ∈ cs, c.All Txn.Ok) :
    Acc (fun t s : Config V (Nat × V) => ∃ e, Step s e t) (program f cs) := by
  have key : ∀ x : List (CSt V) × Nat, Acc Moves x → ∀ (s : Config V (Nat × V)) (tr : List (Nat × V)) (com : Nat → V),
      Inv Txn.Ok f cs x.1 x.2 com s tr → Acc (fun t s : Config V (Nat × V) => ∃ e, Step s e t) s := by
    intro x hx
    induction hx with
    | intro x _ ih =>
      intro s tr com hI
      refine ⟨_, ?_⟩
      rintro s' ⟨e, st⟩
      obtain ⟨cl', n', com', hI', hm⟩ := hI.step (fun _ h => h) st
      exact ih (cl', n') hm _ _ _ hI'
  refine key _ (moves_acc (listNext_acc _ ?_) 0) _ _ _ (initial (fun _ h => h) f hcs)
  intro c hc
  obtain ⟨d, _, rfl⟩ := List.mem_map.1 hc
  exact next_acc d

/-- C157: what every transaction preserves when it is executed at one stroke (the sum of some accounts, say) holds of the values
of the Mutexes whenever none of them is locked. -/
theorem C157_invariant (I : (Nat → V) → Prop) (f : Nat → V) (cs : List (Client V)) (hf : I f)
    (hcs : ∀ c ∈ cs, c.All fun t => t.Ok ∧ ∀ g, I g → I (t.body.run g).2) {tr : List (Nat × V)}
    {s : Config V (Nat × V)} (h : Run (program f cs) tr s) (hl : ∀ m, s.locks m = false) : I s.vars := by
  obtain ⟨cl, n, com, hI⟩ := run_inv (fun _ h => h.1) hcs h
  have hv : s.vars = com := by
    funext m
    refine hI.mem m fun j c hc hu => ?_
    have := hl m
    rw [(hI.locks m).2 ⟨j, c, hc, hu.held⟩] at this
    cases this
  have key : ∀ {cs cs' : List (Client V)} {f g : Nat → V} {tr : List (Nat × V)}, Serial cs f tr cs' g → I f →
      (∀ c ∈ cs, c.All fun t => t.Ok ∧ ∀ g, I g → I (t.body.run g).2) →
      I g ∧ ∀ c ∈ cs', c.All fun t => t.Ok ∧ ∀ g, I g → I (t.body.run g).2 := by
    intro cs cs' f g tr hs hf hcs
    induction hs with
    | nil => exact ⟨hf, hcs⟩
    | step _ hi ih =>
      obtain ⟨h1, h2⟩ := ih hf
      have ht := h2 _ (List.mem_of_getElem? hi)
      refine ⟨ht.1.2 _ h1, fun c hc => ?_⟩
      rcases List.mem_or_eq_of_mem_set hc with h3 | h3
      · exact h2 c h3
      · rw [h3]; exact ht.2 _
  rw [hv]
  exact (key hI.serial hf hcs).1

/-- C157: every serial execution is the outcome of some schedule. -/
theorem C157_any_order (f : Nat → V) (cs : List (Client V)) (hcs : ∀ c ∈ cs, c.All Txn.Ok) {tr : List (Nat × V)}
    {cs' : List (Client V)} {g : Nat → V} (h : Serial cs f tr cs' g) :
    ∃ s, Run (program f cs) tr s ∧ s.vars = g ∧ ∀ m, s.locks m = false := by
  have key : (∀ c ∈ cs', c.All Txn.Ok) ∧ Run (program f cs) tr (quiet g cs') := by
    induction h with
    | nil f =>
      have r := goAll_run (cs.mapIdx Client.proc) (program f cs) [] rfl rfl
      exact ⟨hcs, by simpa [quiet, program, start] using r⟩
    | step _ hi ih =>
      obtain ⟨h1, h2⟩ := ih
      have ht := h1 _ (List.mem_of_getElem? hi)
      refine ⟨fun c hc => ?_, h2.trans (txn_run ht.1 hi)⟩
      rcases List.mem_or_eq_of_mem_set hc with h3 | h3
      · exact h1 c h3
      · rw [h3]; exact ht.2 _
  exact ⟨_, key.2, rfl, fun _ => rfl⟩

/-- C157: the order matters.  Two goroutines that Lock the same two Mutexes in opposite orders can wait for each other for ever,
whatever they would do with the values. -/
theorem C157_opposite_orders (f : Nat → V) {a b : Nat} (hab : a ≠ b) (b1 b2 : Body V) (u1 u2 : List Nat)
    (k1 k2 : V → Client V) :
    ∃ s, Run (program f [.txn ⟨[a, b], b1, u1⟩ k1, .txn ⟨[b, a], b2, u2⟩ k2]) [] s ∧
      (∀ e s', ¬ Step s e s') ∧ ∃ p ∈ s.procs, p ≠ .done := by
  let q1 : Proc V (Nat × V) := b1.proc id (after 0 ⟨[a, b], b1, u1⟩ k1)
  let q2 : Proc V (Nat × V) := b2.proc id (after 1 ⟨[b, a], b2, u2⟩ k2)
  have r0 := goAll_run ([Client.txn ⟨[a, b], b1, u1⟩ k1, .txn ⟨[b, a], b2, u2⟩ k2].mapIdx Client.proc)
    (program f [.txn ⟨[a, b], b1, u1⟩ k1, .txn ⟨[b, a], b2, u2⟩ k2]) [] rfl rfl
  have e : ([Client.txn ⟨[a, b], b1, u1⟩ k1, .txn ⟨[b, a], b2, u2⟩ k2].mapIdx Client.proc) =
      [.lock a (.lock b q1), .lock b (.lock a q2)] := by
    have e1 : (Client.txn ⟨[a, b], b1, u1⟩ k1).proc 0 = .lock a (.lock b q1) := by
      simp only [Client.proc, lockAll_cons]
      rfl
    have e2 : (Client.txn ⟨[b, a], b2, u2⟩ k2).proc 1 = .lock b (.lock a q2) := by
      simp only [Client.proc, lockAll_cons]
      rfl
    simp only [List.mapIdx_cons, List.mapIdx_nil, e1, e2, Nat.zero_add]
  rw [e] at r0
  let s1 : Config V (Nat × V) :=
    { procs := [.done, .lock a (.lock b q1), .lock b (.lock a q2)], chans := [], locks := fun _ => false, vars := f, crashed := false }
  let s2 : Config V (Nat × V) :=
    { procs := [.done, .lock b q1, .lock b (.lock a q2)], chans := [], locks := upd (fun _ => false) a true, vars := f, crashed := false }
  let s3 : Config V (Nat × V) :=
    { procs := [.done, .lock b q1, .lock a q2], chans := [], locks := upd (upd (fun _ => false) a true) b true, vars := f, crashed := false }
  have t1 : Step s1 none s2 := Step.lock (s := s1) (i := 1) rfl rfl rfl
  have t2 : Step s2 none s3 := Step.lock (s := s2) (i := 2) (m := b) rfl rfl (by
    show upd (fun _ => false) a true b = false
    rw [upd, if_neg (Ne.symm hab)])
  have la : s3.locks a = true := by
    show upd (upd (fun _ => false) a true) b true a = true
    rw [upd, if_neg hab, upd, if_pos rfl]
  have lb : s3.locks b = true := by
    show upd (upd (fun _ => false) a true) b true b = true
    rw [upd, if_pos rfl]
  refine ⟨s3, (r0.trans (Run.one t1)).trans (Run.one t2), ?_, _, List.mem_cons_of_mem _ (List.mem_cons_self ..), by intro h; cases h⟩
  have who : ∀ {i : Nat} {p : Proc V (Nat × V)}, s3.procs[i]? = some p → p = .done ∨ p = .lock b q1 ∨ p = .lock a q2 := by
    intro i p hp
    have := List.mem_of_getElem? hp
    simpa [s3] using this
  intro e s' st
  cases st with
  | lock _ hp hl =>
    rcases who hp with h | h | h <;> cases h
    · rw [lb] at hl; cases hl
    · rw [la] at hl; cases hl
  | emit _ hp | go _ hp | unlock _ hp _ | unlockFree _ hp _ | load _ hp | store _ hp | tau _ hp | make _ hp | tryLock _ hp _ | tryLockFails _ hp _ => rcases who hp with h | h | h <;> cases h
  | park _ hp _ _ | meet _ _ hp _ _ _ | meetPoll _ _ hp _ _ _ | recvBuf _ hp _ _ | pollBuf _ hp _ _ | recvClosed _ hp _ _ _ | pollClosed _ hp _ _ _ | pollDefault _ hp _ _ _ _ | close _ hp _ _ | closeClosed _ hp _ _ =>
    rcases who hp with h | h | h <;> cases h
  | sendBuf _ _ hch _ _ | sendClosed _ _ hch _ => cases hch

/-! ### An instance: transfers between accounts -/

/-- Moves `x` from account `a` to account `b`, unless `a` has less than that; the result tells how much was moved. -/
def Tx.transfer (a b x : Nat) : Txn Nat where
  locks := if a < b then [a, b] else [b, a]
  body := .get a fun p => if p < x then .ret 0 else .get b fun q => .put a (p - x) (.put b (q + x) (.ret x))
  unlocks := [b, a]

theorem Tx.transfer_ok {a b : Nat} (x : Nat) (h : a ≠ b) : (transfer a b x).Ok ∧ (transfer a b x).Ordered id := by
  have hm : ∀ m, m ∈ (transfer a b x).locks ↔ m = a ∨ m = b := by
    intro m
    by_cases hl : a < b
    · simp [transfer, hl]
    · simp [transfer, hl, or_comm]
  have hb : (transfer a b x).body.Within (transfer a b x).locks := by
    refine ⟨(hm a).2 (.inl rfl), fun p => ?_⟩
    by_cases hp : p < x
    · simp only [if_pos hp]; trivial
    · simp only [if_neg hp]
      exact ⟨(hm b).2 (.inr rfl), fun q => ⟨(hm a).2 (.inl rfl), (hm b).2 (.inr rfl), trivial⟩⟩
  by_cases hl : a < b
  · refine ⟨⟨?_, hb, ?_⟩, ?_⟩
    · simp [transfer, hl, h]
    · simp only [transfer, if_pos hl]; exact List.Perm.swap ..
    · simp [transfer, hl, Txn.Ordered]
  · have : b < a := by omega
    refine ⟨⟨?_, hb, ?_⟩, ?_⟩
    · simp [transfer, hl, Ne.symm h]
    · simp only [transfer, if_neg hl]; exact List.Perm.refl _
    · simp [transfer, hl, Txn.Ordered, this]

/-- The transfers of one goroutine, one after the other. -/
def Tx.transfers : List (Nat × Nat × Nat) → Client Nat
  | [] => .stop
  | (a, b, x) :: ts => .txn (transfer a b x) fun _ => transfers ts

/-- What is in the first `n` accounts. -/
def Tx.total (n : Nat) (f : Nat → Nat) : Nat := ((List.range n).map f).sum

theorem Tx.total_upd (n : Nat) (f : Nat → Nat) (a v : Nat) :
    total n (fun x => if x = a then v else f x) + (if a < n then f a else 0) = total n f + (if a < n then v else 0) := by
  induction n with
  | zero => rfl
  | succ n ih =>
    simp only [total, List.range_succ, List.map_append, List.sum_append, List.map_cons, List.map_nil, List.sum_cons, List.sum_nil] at ih ⊢
    by_cases h1 : a < n
    · have h2 : a < n + 1 := by omega
      have h3 : n ≠ a := by omega
      simp only [if_pos h1, if_pos h2, if_neg h3] at ih ⊢
      omega
    · by_cases h2 : a = n
      · subst h2
        simp only [Nat.lt_irrefl, if_false, if_true, Nat.lt_succ_self] at ih ⊢
        omega
      · have h3 : ¬ a < n + 1 := by omega
        have h4 : n ≠ a := fun e => h2 e.symm
        simp only [if_neg h1, if_neg h3, if_neg h4] at ih ⊢
        omega

theorem Tx.transfer_total {n a b : Nat} (x : Nat) (h : a ≠ b) (ha : a < n) (hb : b < n) (f : Nat → Nat) :
    total n ((transfer a b x).body.run f).2 = total n f := by
  simp only [transfer, Body.run]
  by_cases hp : f a < x
  · rw [if_pos hp]; rfl
  · rw [if_neg hp]
    simp only [Body.run]
    have h1 := total_upd n f a (f a - x)
    have h2 := total_upd n (fun y => if y = a then f a - x else f y) b (f b + x)
    simp only [if_pos ha, if_pos hb, if_neg (Ne.symm h)] at h1 h2
    omega

/-- C157: goroutines that transfer between accounts, each a Mutex, neither create nor lose anything and never deadlock: every
execution, whatever the schedule, ends with all goroutines through and the total as it was. -/
theorem C157_bank (n : Nat) (f : Nat → Nat) (ts : List (List (Nat × Nat × Nat)))
    (h : ∀ l ∈ ts, ∀ x ∈ l, x.1 ≠ x.2.1 ∧ x.1 < n ∧ x.2.1 < n) {tr : List (Nat × Nat)} {s : Config Nat (Nat × Nat)}
    (hr : Run (program f (ts.map transfers)) tr s) (hn : ∀ e s', ¬ Step s e s') :
    (∀ p ∈ s.procs, p = .done) ∧ total n s.vars = total n f := by
  have all : ∀ c ∈ ts.map transfers, c.All fun t => (t.Ok ∧ t.Ordered id) ∧ ∀ g, total n (t.body.run g).2 = total n g := by
    intro c hc
    obtain ⟨l, hl, rfl⟩ := List.mem_map.1 hc
    have := h l hl
    clear hc hl
    induction l with
    | nil => trivial
    | cons y l ih =>
      obtain ⟨a, b, x⟩ := y
      obtain ⟨h1, h2, h3⟩ := this _ (List.mem_cons_self ..)
      exact ⟨⟨transfer_ok x h1, transfer_total x h1 h2 h3⟩, fun _ => ih fun z hz => this z (List.mem_cons_of_mem _ hz)⟩
  have imp : ∀ {P Q : Txn Nat → Prop}, (∀ t, P t → Q t) → ∀ c : Client Nat, c.All P → c.All Q := by
    intro P Q hPQ c
    induction c with
    | stop => intro _; trivial
    | txn t k ih => intro hc; exact ⟨hPQ _ hc.1, fun v => ih v (hc.2 v)⟩
  obtain ⟨h1, cs', h2, h3⟩ := C157_no_deadlock id f _ (fun c hc => imp (fun t ht => ht.1) c (all c hc)) hr hn
  refine ⟨h1, ?_⟩
  obtain ⟨cl, m, com, hI⟩ := run_inv (P := fun t => (t.Ok ∧ t.Ordered id) ∧ ∀ g, total n (t.body.run g).2 = total n g)
    (fun _ h => h.1.1) all hr
  refine C157_invariant (fun g => total n g = total n f) f _ rfl
    (fun c hc => imp (fun t ht => ⟨ht.1.1, fun g hg => (ht.2 g).trans hg⟩) c (all c hc)) hr fun a => ?_
  cases hl : s.locks a with
  | false => rfl
  | true =>
    obtain ⟨j, c, hc, hm⟩ := (hI.locks a).1 hl
    rw [(hI.stopped (rank := id) (fun _ h => h.1.2) hn).2 j c hc] at hm
    cases hm

-- Two goroutines that transfer in opposite directions: the order in which each gives its results is the order of the effects.
example : Serial [transfers [(0, 1, 3)], transfers [(1, 0, 4)]] (fun _ => 2) [(0, 0), (1, 0)] [.stop, .stop] (fun _ => 2) :=
  .step (i := 1) (t := transfer 1 0 4) (k := fun _ => .stop)
    (.step (i := 0) (t := transfer 0 1 3) (k := fun _ => .stop) (.nil _ _) rfl) rfl
example : ∃ s, Run (program (fun _ => 5) [transfers [(0, 1, 3)], transfers [(1, 0, 4)]]) [(1, 4), (0, 3)] s ∧
    s.vars 0 = 6 ∧ s.vars 1 = 4 := by
  have hs : Serial [transfers [(0, 1, 3)], transfers [(1, 0, 4)]] (fun _ => 5) [(1, 4), (0, 3)] [.stop, .stop] _ :=
    .step (i := 0) (t := transfer 0 1 3) (k := fun _ => .stop)
      (.step (i := 1) (t := transfer 1 0 4) (k := fun _ => .stop) (.nil _ _) rfl) rfl
  obtain ⟨s, h1, h2, _⟩ := C157_any_order _ _ (by
    intro c hc
    rcases List.mem_cons.1 hc with rfl | hc
    · exact ⟨(transfer_ok 3 (by decide)).1, fun _ => trivial⟩
    · rcases List.mem_cons.1 hc with rfl | hc
      · exact ⟨(transfer_ok 4 (by decide)).1, fun _ => trivial⟩
      · cases hc) hs
  exact ⟨s, h1, by rw [h2]; rfl, by rw [h2]; rfl⟩
end
end Gost
