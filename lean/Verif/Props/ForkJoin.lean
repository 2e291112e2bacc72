import Verif.Props.Mutex
import Verif.Props.Gokio
/-
Property C153: a program that spawns threads and gokio tasks which work on a value protected by a Mutex, waits for all of
them and reads the value.
-/
namespace Gost
open Conc
namespace ForkJoin
variable {V : Type}

/-! ### The program -/

/-- What is seen: main's Await of task `i` has returned `v`; main has read `x` at the end. -/
inductive Event (V : Type) where
  | awaited (i : Nat) (v : V)
  | result (x : V)

/-- A task: started with thread.Spawn (`none`) or with gokio.Spawn and this result; its critical sections, each a list of
updates of the value. -/
structure Job (V : Type) where
  returns : Option V
  sections : List (List (V → V))

/-- `*ptr = g(*ptr)` for each of the functions. -/
def update (ptr : Nat) : List (V → V) → Proc V (Event V) → Proc V (Event V)
  | [], k => k
  | g :: gs, k => .load ptr fun x => .store ptr (g x) (update ptr gs k)

/-- The critical sections, one after the other: Lock, updates, Unlock. -/
def work (mutex : Mutex) : List (List (V → V)) → Proc V (Event V) → Proc V (Event V)
  | [], k => k
  | gs :: r, k => mutex.lock_ fun ptr => update ptr gs (mutex.unlock (work mutex r k))

/-- What Spawn returns. -/
inductive Handle where
  | thread (h : Thread.JoinHandle)
  | future (f : Gokio.Future)

def spawnJob (unit : V) (mutex : Mutex) (j : Job V) (k : Handle → Proc V (Event V)) : Proc V (Event V) :=
  match j.returns with
  | none => Thread.spawn unit (work mutex j.sections) fun h => k (.thread h)
  | some r => Gokio.spawn (fun ret => work mutex j.sections (ret r)) fun f => k (.future f)

def spawnAll (unit : V) (mutex : Mutex) : List (Job V) → (List Handle → Proc V (Event V)) → Proc V (Event V)
  | [], k => k []
  | j :: js, k => spawnJob unit mutex j fun h => spawnAll unit mutex js fun hs => k (h :: hs)

/-- Join of a thread, Await of a future. -/
def waitFor (zero : V) (i : Nat) (k : Proc V (Event V)) : Handle → Proc V (Event V)
  | .thread h => Thread.join h k
  | .future f => Gokio.await zero f fun v => .emit (.awaited i v) k

def waitAll (zero : V) (hs : List Handle) : List Nat → Proc V (Event V) → Proc V (Event V)
  | [], k => k
  | i :: is, k => match hs[i]? with
    | some h => waitFor zero i (waitAll zero hs is k) h
    | none => waitAll zero hs is k

/-- The end of main: read the value. -/
def readOut (mutex : Mutex) : Proc V (Event V) :=
  mutex.lock_ fun ptr => .load ptr fun x => .emit (.result x) (mutex.unlock .done)

/-- main makes a mutex with the value `v`, spawns the jobs, waits for them in the given order and reads the value. -/
def program (unit zero v : V) (jobs : List (Job V)) (order : List Nat) : Config V (Event V) :=
  start (fun _ => v) (spawnAll unit (Mutex.new 0 0) jobs fun hs => waitAll zero hs order (readOut (Mutex.new 0 0)))

/-! ### Specification -/

/-- The critical sections of all tasks, in some order that keeps the order of each task. -/
def Interleaving (jobs : List (Job V)) (log : List (Nat × List (V → V))) : Prop :=
  (∀ e ∈ log, e.1 < jobs.length) ∧
  ∀ i j, jobs[i]? = some j → (log.filter fun e => e.1 == i).map Prod.snd = j.sections

/-- The value after these critical sections. -/
def total (log : List (Nat × List (V → V))) (v : V) : V := log.foldl (fun x e => Mutex.applied e.2 x) v

/-- The results main gets from its Awaits. -/
def results (jobs : List (Job V)) (order : List Nat) : List (Event V) :=
  order.filterMap fun i => (jobs[i]?.bind Job.returns).map (.awaited i)

/-! ### Abstract states -/

/-- The tasks to wait for, with what they return. -/
abbrev Waits (V : Type) := List (Nat × Option V)

def waitsOf (jobs : List (Job V)) (order : List Nat) : Waits V :=
  order.filterMap fun i => jobs[i]?.map fun j => (i, j.returns)

def waits (zero : V) : Waits V → Proc V (Event V) → Proc V (Event V)
  | [], k => k
  | (i, none) :: is, k => .recv i fun _ => waits zero is k
  | (i, some _) :: is, k => .recv i fun x => .emit (.awaited i (x.getD zero)) (waits zero is k)

inductive Main (V : Type) where
  | spawn (old : List (Job V)) (j : Job V) (left : List (Job V))
  | going (old : List (Job V)) (j : Job V) (left : List (Job V))
  | wait (i : Nat) (r : Option V) (is : Waits V)
  | told (i : Nat) (v : V) (is : Waits V)
  | lock
  | load
  | tell (x : V)
  | unlock
  | fin

def toWait : Waits V → Main V
  | [] => .lock
  | (i, r) :: is => .wait i r is
def toSpawn (w : Waits V) (old : List (Job V)) : List (Job V) → Main V
  | [] => toWait w
  | j :: left => .spawn old j left

inductive TaskSt (V : Type) where
  | start (gs : List (V → V)) (rest : List (List (V → V)))
  | reading (g : V → V) (gs : List (V → V)) (rest : List (List (V → V)))
  | loaded (x : V) (g : V → V) (gs : List (V → V)) (rest : List (List (V → V)))
  | leaving (rest : List (List (V → V)))
  | sending
  | waiting
  | closing
  | over

def toStart : List (List (V → V)) → TaskSt V
  | [] => .sending
  | gs :: r => .start gs r
def toInside (gs : List (V → V)) (rest : List (List (V → V))) : TaskSt V :=
  match gs with
  | [] => .leaving rest
  | g :: gs => .reading g gs rest
def afterSend : Option V → TaskSt V
  | none => .over
  | some _ => .closing

structure Task (V : Type) where
  chan : Nat
  returns : Option V
  st : TaskSt V

structure St (V : Type) where
  main : Main V
  tasks : List (Task V)
  value : V
  locked : Bool
  log : List (Nat × List (V → V))

def handle (j : Job V) (c : Nat) : Handle :=
  match j.returns with
  | none => .thread ⟨c⟩
  | some _ => .future ⟨c⟩
def handles : Nat → List (Job V) → List Handle
  | _, [] => []
  | c, j :: js => handle j c :: handles (c + 1) js

def after (c : Nat) : Option V → Proc V (Event V)
  | none => .done
  | some _ => .close c .done
def sendOff (unit : V) (c : Nat) (r : Option V) : Proc V (Event V) := .send c (r.getD unit) (after c r)

def Task.proc (unit : V) (t : Task V) : Proc V (Event V) :=
  match t.st with
  | .start gs rest => .lock 0 (update 0 gs (.unlock 0 (work (Mutex.new 0 0) rest (sendOff unit t.chan t.returns))))
  | .reading g gs rest => .load 0 fun x => .store 0 (g x)
      (update 0 gs (.unlock 0 (work (Mutex.new 0 0) rest (sendOff unit t.chan t.returns))))
  | .loaded x g gs rest => .store 0 (g x) (update 0 gs (.unlock 0 (work (Mutex.new 0 0) rest (sendOff unit t.chan t.returns))))
  | .leaving rest => .unlock 0 (work (Mutex.new 0 0) rest (sendOff unit t.chan t.returns))
  | .sending => .send t.chan (t.returns.getD unit) (after t.chan t.returns)
  | .waiting => .parked t.chan (t.returns.getD unit) (after t.chan t.returns)
  | .closing => .close t.chan .done
  | .over => .done

def Task.isOver (t : Task V) : Bool := match t.st with
  | .over => true
  | _ => false
def Task.channel (t : Task V) : Chan V := ⟨0, [], t.returns.isSome && t.isOver⟩

def Main.proc (unit zero : V) (cont : List Handle → Proc V (Event V)) : Main V → Proc V (Event V)
  | .spawn old j left => .make 0 fun c => .go (work (Mutex.new 0 0) j.sections (sendOff unit c j.returns))
      (spawnAll unit (Mutex.new 0 0) left fun hs => cont (handles 0 old ++ handle j c :: hs))
  | .going old j left => .go (work (Mutex.new 0 0) j.sections (sendOff unit old.length j.returns))
      (spawnAll unit (Mutex.new 0 0) left fun hs => cont (handles 0 old ++ handle j old.length :: hs))
  | .wait i none is => .recv i fun _ => waits zero is (readOut (Mutex.new 0 0))
  | .wait i (some _) is => .recv i fun x => .emit (.awaited i (x.getD zero)) (waits zero is (readOut (Mutex.new 0 0)))
  | .told i v is => .emit (.awaited i v) (waits zero is (readOut (Mutex.new 0 0)))
  | .lock => .lock 0 (.load 0 fun x => .emit (.result x) (.unlock 0 .done))
  | .load => .load 0 fun x => .emit (.result x) (.unlock 0 .done)
  | .tell x => .emit (.result x) (.unlock 0 .done)
  | .unlock => .unlock 0 .done
  | .fin => .done

/-- The channel that has been made for a task not yet started. -/
def Main.fresh : Main V → List (Chan V)
  | .going .. => [⟨0, [], false⟩]
  | _ => []

/-- main after the last Spawn. -/
def rest (zero : V) (order : List Nat) (hs : List Handle) : Proc V (Event V) := waitAll zero hs order (readOut (Mutex.new 0 0))

/-- The configuration an abstract state stands for. -/
def conf (unit zero v : V) (order : List Nat) (a : St V) : Config V (Event V) where
  procs := a.main.proc unit zero (rest zero order) :: a.tasks.map (Task.proc unit)
  chans := a.tasks.map Task.channel ++ a.main.fresh
  locks := upd (fun _ => false) 0 a.locked
  vars := upd (fun _ => v) 0 a.value
  crashed := false

/-- The moves of the program. -/
inductive Move (unit : V) (w : Waits V) : St V → Option (Event V) → St V → Prop
  | make {old j left ts x l log} : Move unit w ⟨.spawn old j left, ts, x, l, log⟩ none ⟨.going old j left, ts, x, l, log⟩
  | go {old j left ts x l log} : Move unit w ⟨.going old j left, ts, x, l, log⟩ none
      ⟨toSpawn w (old ++ [j]) left, ts ++ [⟨old.length, j.returns, toStart j.sections⟩], x, l, log⟩
  | lockT {m ts x log c r gs rest} {i : Nat} (h : ts[i]? = some ⟨c, r, .start gs rest⟩) :
      Move unit w ⟨m, ts, x, false, log⟩ none ⟨m, ts.set i ⟨c, r, toInside gs rest⟩, x, true, log ++ [(c, gs)]⟩
  | loadT {m ts x l log c r g gs rest} {i : Nat} (h : ts[i]? = some ⟨c, r, .reading g gs rest⟩) :
      Move unit w ⟨m, ts, x, l, log⟩ none ⟨m, ts.set i ⟨c, r, .loaded x g gs rest⟩, x, l, log⟩
  | storeT {m ts x l log c r y g gs rest} {i : Nat} (h : ts[i]? = some ⟨c, r, .loaded y g gs rest⟩) :
      Move unit w ⟨m, ts, x, l, log⟩ none ⟨m, ts.set i ⟨c, r, toInside gs rest⟩, g y, l, log⟩
  | unlockT {m ts x log c r rest} {i : Nat} (h : ts[i]? = some ⟨c, r, .leaving rest⟩) :
      Move unit w ⟨m, ts, x, true, log⟩ none ⟨m, ts.set i ⟨c, r, toStart rest⟩, x, false, log⟩
  | park {m ts x l log c r} {i : Nat} (h : ts[i]? = some ⟨c, r, .sending⟩) :
      Move unit w ⟨m, ts, x, l, log⟩ none ⟨m, ts.set i ⟨c, r, .waiting⟩, x, l, log⟩
  | meetJoin {ts x l log c is} {st : TaskSt V} {r : Option V} {i : Nat} (h : ts[i]? = some ⟨c, r, st⟩)
      (hs : st = .sending ∨ st = .waiting) :
      Move unit w ⟨.wait c none is, ts, x, l, log⟩ none ⟨toWait is, ts.set i ⟨c, r, afterSend r⟩, x, l, log⟩
  | meetAwait {ts x l log c is} {st : TaskSt V} {r : Option V} {y : V} {i : Nat} (h : ts[i]? = some ⟨c, r, st⟩)
      (hs : st = .sending ∨ st = .waiting) :
      Move unit w ⟨.wait c (some y) is, ts, x, l, log⟩ none ⟨.told c (r.getD unit) is, ts.set i ⟨c, r, afterSend r⟩, x, l, log⟩
  | tell {ts x l log i v is} : Move unit w ⟨.told i v is, ts, x, l, log⟩ (some (.awaited i v)) ⟨toWait is, ts, x, l, log⟩
  | closeT {m ts x l log c r} {i : Nat} (h : ts[i]? = some ⟨c, r, .closing⟩) :
      Move unit w ⟨m, ts, x, l, log⟩ none ⟨m, ts.set i ⟨c, r, .over⟩, x, l, log⟩
  | lockM {ts x log} : Move unit w ⟨.lock, ts, x, false, log⟩ none ⟨.load, ts, x, true, log⟩
  | loadM {ts x l log} : Move unit w ⟨.load, ts, x, l, log⟩ none ⟨.tell x, ts, x, l, log⟩
  | tellM {ts x l log y} : Move unit w ⟨.tell y, ts, x, l, log⟩ (some (.result y)) ⟨.unlock, ts, x, l, log⟩
  | unlockM {ts x log} : Move unit w ⟨.unlock, ts, x, true, log⟩ none ⟨.fin, ts, x, false, log⟩

/-! ### Invariants -/

def TaskSt.holds : TaskSt V → Bool
  | .reading .. | .loaded .. | .leaving .. => true
  | _ => false
def Main.holds : Main V → Bool
  | .load | .tell _ | .unlock => true
  | _ => false
/-- What the holder of the mutex still does to the value. -/
def TaskSt.pending : TaskSt V → List (V → V)
  | .reading g gs _ | .loaded _ g gs _ => g :: gs
  | _ => []
/-- The sections a task has not begun. -/
def TaskSt.left : TaskSt V → List (List (V → V))
  | .start gs rest => gs :: rest
  | .reading _ _ rest | .loaded _ _ _ rest | .leaving rest => rest
  | _ => []
def TaskSt.sent : TaskSt V → Bool
  | .closing | .over => true
  | _ => false
/-- The tasks main is still going to wait for. -/
def Main.waits (w : Waits V) : Main V → Waits V
  | .spawn .. | .going .. => w
  | .wait i r is => (i, r) :: is
  | .told _ _ is => is
  | _ => []
/-- The jobs main has already spawned. -/
def Main.spawned (jobs : List (Job V)) : Main V → List (Job V)
  | .spawn old .. | .going old .. => old
  | _ => jobs
/-- The jobs main has not spawned. -/
def Main.toDo : Main V → List (Job V)
  | .spawn _ j left | .going _ j left => j :: left
  | _ => []
/-- What main will tell of its Awaits. -/
def awaits (is : Waits V) : List (Event V) := is.filterMap fun p => p.2.map (.awaited p.1)
def Main.future (w : Waits V) : Main V → List (Event V)
  | .spawn .. | .going .. => awaits w
  | .wait i r is => awaits ((i, r) :: is)
  | .told i v is => .awaited i v :: awaits is
  | _ => []
def Main.ended : Main V → Bool
  | .unlock | .fin => true
  | _ => false

structure Inv (v : V) (jobs : List (Job V)) (order : List Nat) (a : St V) (tr : List (Event V)) : Prop where
  /-- the tasks are those of the jobs spawned -/
  spawned : a.main.spawned jobs ++ a.main.toDo = jobs
  len : a.tasks.length = (a.main.spawned jobs).length
  task : ∀ (i : Nat) t, a.tasks[i]? = some t → t.chan = i ∧ ∃ j, jobs[i]? = some j ∧ t.returns = j.returns ∧
    (a.log.filter fun e => e.1 == i).map Prod.snd ++ t.st.left = j.sections
  logged : ∀ e ∈ a.log, e.1 < a.tasks.length
  /-- at most one holder -/
  holders : a.tasks.countP (fun t => t.st.holds) + a.main.holds.toNat = a.locked.toNat
  value : ∀ (i : Nat) t, a.tasks[i]? = some t → t.st.holds = true → Mutex.applied t.st.pending a.value = total a.log v
  free : a.tasks.countP (fun t => t.st.holds) = 0 → a.value = total a.log v
  seen : ∀ (i : Nat) c r x g gs rest, a.tasks[i]? = some (Task.mk c r (.loaded x g gs rest)) → x = a.value
  /-- the tasks whose signal has been taken are those main has waited for -/
  sent : ∀ (i : Nat) t, a.tasks[i]? = some t → (t.st.sent = true ↔ i ∉ (a.main.waits (waitsOf jobs order)).map Prod.fst)
  suffix : a.main.waits (waitsOf jobs order) <:+ waitsOf jobs order
  closing : ∀ (i : Nat) c r, a.tasks[i]? = some (Task.mk c r .closing) → r.isSome = true
  told : a.main.ended = false → tr ++ a.main.future (waitsOf jobs order) = results jobs order
  tell : ∀ x, a.main = .tell x → x = a.value
  ended : a.main.ended = true → tr = results jobs order ++ [.result (total a.log v)]

theorem get_set {ts : List (Task V)} {i k : Nat} {t' u : Task V} (hk : (ts.set i t')[k]? = some u) :
    (k = i ∧ u = t') ∨ (k ≠ i ∧ ts[k]? = some u) := by
  rw [List.getElem?_set] at hk
  by_cases h : i = k
  · subst h
    rw [if_pos rfl] at hk
    split at hk
    · exact .inl ⟨rfl, by simpa using hk.symm⟩
    · cases hk
  · rw [if_neg h] at hk
    exact .inr ⟨fun e => h e.symm, hk⟩

theorem countP_set {ts : List (Task V)} {i : Nat} {t t' : Task V} (h : ts[i]? = some t) :
    (ts.set i t').countP (fun t => t.st.holds) + t.st.holds.toNat = ts.countP (fun t => t.st.holds) + t'.st.holds.toNat := by
  induction ts generalizing i with
  | nil => simp at h
  | cons a ts ih =>
    cases i with
    | zero =>
      simp only [List.getElem?_cons_zero, Option.some.injEq] at h
      subst h
      simp only [List.set_cons_zero, List.countP_cons]
      cases a.st.holds <;> cases t'.st.holds <;> simp <;> omega
    | succ i =>
      simp only [List.getElem?_cons_succ] at h
      have := ih h
      simp only [List.set_cons_succ, List.countP_cons]
      omega

theorem countP_pos {ts : List (Task V)} {i : Nat} {t : Task V} (h : ts[i]? = some t) (ht : t.st.holds = true) :
    0 < ts.countP (fun t => t.st.holds) :=
  List.countP_pos_iff.2 ⟨t, List.mem_of_getElem? h, ht⟩

/-- There is only one holder. -/
theorem one_holder {ts : List (Task V)} (hc : ts.countP (fun t => t.st.holds) ≤ 1) {i k : Nat} {t u : Task V}
    (hi : ts[i]? = some t) (ht : t.st.holds = true) (hne : k ≠ i) (hk : ts[k]? = some u) : u.st.holds = false := by
  cases hu : u.st.holds with
  | false => rfl
  | true =>
    have h1 := countP_set (t' := ⟨0, none, .over⟩) hi
    have h2 : (ts.set i ⟨0, none, .over⟩)[k]? = some u := by rw [List.getElem?_set, if_neg (Ne.symm hne)]; exact hk
    have h3 := countP_pos h2 hu
    rw [ht, show (Task.mk (V := V) 0 none .over).st.holds = false from rfl] at h1
    simp only [Bool.toNat_true, Bool.toNat_false] at h1
    omega

theorem loaded_holds (x : V) (g gs rest) : (TaskSt.loaded x g gs rest).holds = true := rfl

/-- A move of one task. -/
theorem Inv.task_move {v : V} {jobs : List (Job V)} {order : List Nat} {m : Main V} {ts : List (Task V)} {x : V} {l : Bool}
    {log : List (Nat × List (V → V))} {tr : List (Event V)} (h : Inv v jobs order ⟨m, ts, x, l, log⟩ tr) {i c : Nat} {r : Option V}
    {st : TaskSt V} (hi : ts[i]? = some ⟨c, r, st⟩) {st' : TaskSt V} {x' : V} {l' : Bool} {log' : List (Nat × List (V → V))}
    (hlogi : (log'.filter fun e => e.1 == i).map Prod.snd ++ st'.left = (log.filter fun e => e.1 == i).map Prod.snd ++ st.left)
    (hlogk : ∀ k, k ≠ i → (log'.filter fun e => e.1 == k) = log.filter fun e => e.1 == k)
    (hlogm : ∀ e ∈ log', e.1 < ts.length)
    (hhold : st'.holds.toNat + l.toNat = st.holds.toNat + l'.toNat)
    (hval : st'.holds = true → Mutex.applied st'.pending x' = total log' v)
    (hother : (∀ (k : Nat) t, k ≠ i → ts[k]? = some t → t.st.holds = false) ∨ (x' = x ∧ log' = log))
    (hfree : st'.holds = false → (st.holds = false ∧ x' = x ∧ log' = log) ∨ x' = total log' v)
    (hseen : ∀ y g gs rest, st' = .loaded y g gs rest → y = x')
    (hsent : st'.sent = st.sent) (hlog : st.sent = true → log' = log)
    (hclosing : st' ≠ .closing) (hx : st.holds = false → x' = x) :
    Inv v jobs order ⟨m, ts.set i ⟨c, r, st'⟩, x', l', log'⟩ tr := by
  have hcnt := countP_set (t' := ⟨c, r, st'⟩) hi
  have hold := h.holders
  simp only at hold hcnt
  have hil : i < ts.length := (List.getElem?_eq_some_iff.1 hi).1
  have hti := h.task i _ hi
  refine ⟨h.spawned, by simpa using h.len, ?_, by simpa using hlogm, ?_, ?_, ?_, ?_, ?_, h.suffix, ?_, h.told, ?_, ?_⟩
  · intro k t hk
    rcases get_set hk with ⟨rfl, rfl⟩ | ⟨hne, hk⟩
    · obtain ⟨h1, j, h2, h3, h4⟩ := hti
      exact ⟨h1, j, h2, h3, by rw [← h4]; exact hlogi⟩
    · obtain ⟨h1, j, h2, h3, h4⟩ := h.task k t hk
      exact ⟨h1, j, h2, h3, by rw [← h4]; simp only [hlogk k hne]⟩
  · simp only
    omega
  · intro k t hk ht
    rcases get_set hk with ⟨rfl, rfl⟩ | ⟨hne, hk⟩
    · exact hval ht
    · rcases hother with ho | ⟨rfl, rfl⟩
      · rw [ho k t hne hk] at ht; cases ht
      · exact h.value k t hk ht
  · intro h0
    have h0 : (ts.set i ⟨c, r, st'⟩).countP (fun t => t.st.holds) = 0 := h0
    have hst' : st'.holds = false := by
      cases hs : st'.holds with
      | false => rfl
      | true =>
        have := countP_pos (t := ⟨c, r, st'⟩) (i := i) (ts := ts.set i ⟨c, r, st'⟩) (by simp [hil]) hs
        omega
    rcases hfree hst' with ⟨h1, rfl, rfl⟩ | h1
    · refine h.free ?_
      rw [h1, hst'] at hcnt
      simp only [Bool.toNat_false] at hcnt ⊢
      omega
    · exact h1
  · intro k c' r' y g gs rest hk
    rcases get_set hk with ⟨rfl, e⟩ | ⟨hne, hk⟩
    · cases e
      exact hseen _ _ _ _ rfl
    · rcases hother with ho | ⟨rfl, rfl⟩
      · exact absurd (ho k _ hne hk) (by simp [TaskSt.holds])
      · exact h.seen k _ _ _ _ _ _ hk
  · intro k t hk
    rcases get_set hk with ⟨rfl, rfl⟩ | ⟨hne, hk⟩
    · rw [hsent]
      exact h.sent k _ hi
    · exact h.sent k t hk
  · intro k c' r' hk
    rcases get_set hk with ⟨rfl, e⟩ | ⟨hne, hk⟩
    · cases e
      exact absurd rfl hclosing
    · exact h.closing k _ _ hk
  · intro y hm
    simp only at hm
    subst hm
    have := h.tell y rfl
    rw [this]
    refine (hx ?_).symm
    cases hs : st.holds with
    | false => rfl
    | true =>
      have := countP_pos hi hs
      have h2 := Bool.toNat_le l
      simp only [Main.holds, Bool.toNat_true] at hold
      omega
  · intro he
    have hs : st.sent = true := by
      refine (h.sent i _ hi).2 ?_
      simp only at he
      cases m <;> simp_all [Main.ended, Main.waits]
    rw [hlog hs]
    exact h.ended he

theorem applied_cons (g : V → V) (gs : List (V → V)) (x : V) : Mutex.applied (g :: gs) x = Mutex.applied gs (g x) := rfl

theorem toInside_holds (gs : List (V → V)) (rest) : (toInside gs rest).holds = true := by cases gs <;> rfl
theorem toInside_pending (gs : List (V → V)) (rest) : (toInside gs rest).pending = gs := by cases gs <;> rfl
theorem toInside_left (gs : List (V → V)) (rest) : (toInside gs rest).left = rest := by cases gs <;> rfl
theorem toInside_sent (gs : List (V → V)) (rest) : (toInside gs rest).sent = false := by cases gs <;> rfl
theorem toStart_holds (rest : List (List (V → V))) : (toStart rest).holds = false := by cases rest <;> rfl
theorem toStart_left (rest : List (List (V → V))) : (toStart rest).left = rest := by cases rest <;> rfl
theorem toStart_sent (rest : List (List (V → V))) : (toStart rest).sent = false := by cases rest <;> rfl
theorem afterSend_holds (r : Option V) : (afterSend r).holds = false := by cases r <;> rfl
theorem afterSend_left (r : Option V) : (afterSend r).left = [] := by cases r <;> rfl
theorem afterSend_sent (r : Option V) : (afterSend r).sent = true := by cases r <;> rfl

theorem toWait_waits (w is : Waits V) : (toWait is).waits w = is := by
  cases is <;> rfl
theorem toWait_spawned (jobs : List (Job V)) (is : Waits V) : (toWait is).spawned jobs = jobs := by
  cases is <;> rfl
theorem toWait_toDo (is : Waits V) : (toWait is).toDo = [] := by
  cases is <;> rfl
theorem toWait_holds (is : Waits V) : (toWait is).holds = false := by
  cases is <;> rfl
theorem toWait_ended (is : Waits V) : (toWait is).ended = false := by
  cases is <;> rfl
theorem toWait_future (w is : Waits V) : (toWait is).future w = awaits is := by
  cases is <;> rfl
theorem toWait_tell (is : Waits V) (x : V) : toWait is ≠ .tell x := by
  cases is <;> simp [toWait]

theorem awaits_waitsOf (jobs : List (Job V)) (order : List Nat) : awaits (waitsOf jobs order) = results jobs order := by
  unfold awaits waitsOf results
  rw [List.filterMap_filterMap]
  congr 1
  funext i
  cases jobs[i]? <;> rfl

theorem waitsOf_fst {jobs : List (Job V)} {order : List Nat} (ho : order.Perm (List.range jobs.length)) :
    (waitsOf jobs order).map Prod.fst = order := by
  have : ∀ i ∈ order, i < jobs.length := fun i hi => List.mem_range.1 (ho.mem_iff.1 hi)
  clear ho
  unfold waitsOf
  induction order with
  | nil => rfl
  | cons i is ih =>
    have hi := this i (by simp)
    rw [List.filterMap_cons, List.getElem?_eq_getElem hi]
    simp only [Option.map_some, List.map_cons]
    rw [ih fun k hk => this k (by simp [hk])]

theorem mem_waitsOf {jobs : List (Job V)} {order : List Nat} {i : Nat} {r : Option V} (h : (i, r) ∈ waitsOf jobs order) :
    ∃ j, jobs[i]? = some j ∧ r = j.returns := by
  unfold waitsOf at h
  obtain ⟨k, _, hk⟩ := List.mem_filterMap.1 h
  cases hj : jobs[k]? with
  | none => rw [hj] at hk; simp at hk
  | some j =>
    rw [hj] at hk
    simp only [Option.map_some, Option.some.injEq, Prod.mk.injEq] at hk
    obtain ⟨rfl, rfl⟩ := hk
    exact ⟨j, hj, rfl⟩

theorem total_snoc (log : List (Nat × List (V → V))) (e : Nat × List (V → V)) (v : V) :
    total (log ++ [e]) v = Mutex.applied e.2 (total log v) := by
  simp [total, List.foldl_append]

/-- A task and main meet. -/
theorem Inv.meet {v : V} {jobs : List (Job V)} {order : List Nat} (ho : order.Perm (List.range jobs.length)) {ts : List (Task V)}
    {x : V} {l : Bool} {log : List (Nat × List (V → V))} {tr : List (Event V)} {c i : Nat} {r r' : Option V} {is : Waits V}
    {st : TaskSt V} (h : Inv v jobs order ⟨.wait c r' is, ts, x, l, log⟩ tr) (hi : ts[i]? = some ⟨c, r, st⟩)
    (hs : st = .sending ∨ st = .waiting) {m : Main V} (h1 : m.spawned jobs = jobs) (h2 : m.toDo = [])
    (h3 : m.waits (waitsOf jobs order) = is) (h4 : m.holds = false) (h5 : m.ended = false)
    (h6 : r' = r → m.future (waitsOf jobs order) = awaits ((c, r') :: is)) :
    Inv v jobs order ⟨m, ts.set i ⟨c, r, afterSend r⟩, x, l, log⟩ tr := by
  have hold := h.holders
  have hcnt := countP_set (t' := ⟨c, r, afterSend r⟩) hi
  have hst : st.holds = false ∧ st.left = [] := by rcases hs with rfl | rfl <;> exact ⟨rfl, rfl⟩
  simp only [afterSend_holds, hst.1, Bool.toNat_false, Nat.add_zero] at hcnt
  have hti := h.task i _ hi
  have hci : c = i := hti.1
  subst hci
  have hsuf := h.suffix
  simp only [Main.waits] at hsuf
  have hnd : ((c, r') :: is).map Prod.fst |>.Nodup := by
    have : (((c, r') :: is).map Prod.fst).Sublist ((waitsOf jobs order).map Prod.fst) := hsuf.sublist.map _
    rw [waitsOf_fst ho] at this
    exact (ho.nodup_iff.2 List.nodup_range).sublist this
  simp only [List.map_cons, List.nodup_cons] at hnd
  have hrr : r' = r := by
    obtain ⟨j, h1, h2⟩ := mem_waitsOf (hsuf.subset (List.mem_cons_self ..))
    obtain ⟨_, j', h3, h4, _⟩ := hti
    rw [h1] at h3
    cases h3
    exact h2.trans h4.symm
  refine ⟨?_, ?_, ?_, by simpa using h.logged, ?_, ?_, ?_, ?_, ?_, ?_, ?_, ?_, ?_, ?_⟩
  · simp only [h1, h2, List.append_nil]
  · simp only [h1, List.length_set]
    exact h.len
  · intro k t hk
    rcases get_set hk with ⟨rfl, rfl⟩ | ⟨hne, hk⟩
    · obtain ⟨e1, j, e2, e3, e4⟩ := hti
      refine ⟨e1, j, e2, e3, ?_⟩
      rw [← e4]
      simp only [afterSend_left, hst.2]
    · exact h.task k t hk
  · simp only [h4, hcnt]
    simpa [Main.holds] using hold
  · intro k t hk ht
    rcases get_set hk with ⟨rfl, rfl⟩ | ⟨hne, hk⟩
    · simp only [afterSend_holds] at ht
      cases ht
    · exact h.value k t hk ht
  · intro h0
    exact h.free (hcnt ▸ h0)
  · intro k c' r' y g gs rest hk
    rcases get_set hk with ⟨rfl, e⟩ | ⟨hne, hk⟩
    · have := congrArg (fun t : Task V => t.st.holds) e
      simp only [afterSend_holds, loaded_holds] at this
      cases this
    · exact h.seen k _ _ _ _ _ _ hk
  · intro k t hk
    simp only [h3]
    rcases get_set hk with ⟨rfl, rfl⟩ | ⟨hne, hk⟩
    · simp only [afterSend_sent, true_iff]
      exact hnd.1
    · rw [h.sent k t hk]
      simp [Main.waits, hne]
  · simp only [h3]
    exact (List.suffix_cons _ _).trans hsuf
  · intro k c' r'' hk
    rcases get_set hk with ⟨rfl, e⟩ | ⟨hne, hk⟩
    · simp only [Task.mk.injEq] at e
      obtain ⟨_, rfl, e⟩ := e
      cases r'' with
      | none => simp [afterSend] at e
      | some => rfl
    · exact h.closing k _ _ hk
  · intro _
    simp only [h6 hrr]
    exact h.told rfl
  · intro y hy
    simp only at hy
    rw [hy] at h4
    simp [Main.holds] at h4
  · intro he
    simp only [h5] at he
    cases he

/-- The moves keep the invariant. -/
theorem inv_move {unit v : V} {jobs : List (Job V)} {order : List Nat} (ho : order.Perm (List.range jobs.length)) {a a' : St V}
    {tr : List (Event V)} {e : Option (Event V)} (h : Inv v jobs order a tr) (hm : Move unit (waitsOf jobs order) a e a') :
    Inv v jobs order a' (tr ++ e.toList) := by
  have hfst := waitsOf_fst ho
  cases hm with
  | @make old j left ts x l log =>
    rw [Option.toList_none, List.append_nil]
    exact ⟨h.spawned, h.len, h.task, h.logged, h.holders, h.value, h.free, h.seen, h.sent, h.suffix, h.closing, h.told,
      fun x hx => by simp at hx, fun he => by simp [Main.ended] at he⟩
  | @go old j left ts x l log =>
    rw [Option.toList_none, List.append_nil]
    have hsp := h.spawned
    have hln := h.len
    simp only [Main.spawned, Main.toDo] at hsp hln
    have hj : jobs[old.length]? = some j := by rw [← hsp]; simp
    have hsp' : (toSpawn (waitsOf jobs order) (old ++ [j]) left).spawned jobs = old ++ [j] := by
      cases left with
      | nil => rw [toSpawn, toWait_spawned, ← hsp]
      | cons => rfl
    have htd : (toSpawn (waitsOf jobs order) (old ++ [j]) left).toDo = left := by
      cases left with
      | nil => rw [toSpawn, toWait_toDo]
      | cons => rfl
    have hw : (toSpawn (waitsOf jobs order) (old ++ [j]) left).waits (waitsOf jobs order) = waitsOf jobs order := by
      cases left with
      | nil => rw [toSpawn, toWait_waits]
      | cons => rfl
    have hh : (toSpawn (waitsOf jobs order) (old ++ [j]) left).holds = false := by
      cases left with
      | nil => rw [toSpawn, toWait_holds]
      | cons => rfl
    have he : (toSpawn (waitsOf jobs order) (old ++ [j]) left).ended = false := by
      cases left with
      | nil => rw [toSpawn, toWait_ended]
      | cons => rfl
    have hf : (toSpawn (waitsOf jobs order) (old ++ [j]) left).future (waitsOf jobs order) = awaits (waitsOf jobs order) := by
      cases left with
      | nil => rw [toSpawn, toWait_future]
      | cons => rfl
    have hcnt : (ts ++ [Task.mk old.length j.returns (toStart j.sections)]).countP (fun t => t.st.holds) =
        ts.countP (fun t => t.st.holds) := by
      rw [List.countP_append]
      simp [toStart_holds]
    have get : ∀ (i : Nat) t, (ts ++ [⟨old.length, j.returns, toStart j.sections⟩])[i]? = some t →
        ts[i]? = some t ∨ (i = old.length ∧ t = ⟨old.length, j.returns, toStart j.sections⟩) := by
      intro i t hi
      by_cases hl : i < ts.length
      · rw [List.getElem?_append_left hl] at hi
        exact .inl hi
      · rw [List.getElem?_append_right (by omega)] at hi
        cases hk : i - ts.length with
        | zero =>
          rw [hk] at hi
          exact .inr ⟨by omega, by simpa using hi.symm⟩
        | succ => rw [hk] at hi; simp at hi
    refine ⟨by rw [hsp', htd, ← hsp]; simp, by rw [hsp']; simp [hln], ?_, ?_, ?_, ?_, ?_, ?_, ?_, ?_, ?_, ?_, ?_, ?_⟩
    · intro i t hi
      rcases get i t hi with hi | ⟨rfl, rfl⟩
      · exact h.task i t hi
      · refine ⟨rfl, j, hj, rfl, ?_⟩
        simp only [toStart_left]
        have : (log.filter fun e => e.1 == old.length) = [] := by
          rw [List.filter_eq_nil_iff]
          intro e he
          have := h.logged e he
          simp only at this
          simp only [beq_iff_eq]
          omega
        rw [this]; rfl
    · intro e he
      have := h.logged e he
      simp only at this
      simp only [List.length_append, List.length_singleton]
      omega
    · have := h.holders
      simp only [Main.holds] at this
      simp only
      rw [hcnt, hh]
      exact this
    · intro i t hi ht
      rcases get i t hi with hi | ⟨rfl, rfl⟩
      · exact h.value i t hi ht
      · simp only [toStart_holds] at ht
        cases ht
    · intro h0
      exact h.free (hcnt ▸ h0)
    · intro i c r y g gs rest hi
      rcases get i _ hi with hi | ⟨rfl, e⟩
      · exact h.seen i c r y g gs rest hi
      · have := congrArg (fun t : Task V => t.st.holds) e
        simp only [toStart_holds, loaded_holds] at this
        cases this
    · intro i t hi
      rw [hw]
      rcases get i t hi with hi | ⟨rfl, rfl⟩
      · exact h.sent i t hi
      · simp only [toStart_sent, hfst]
        constructor
        · intro h; cases h
        · intro hn
          exact absurd (ho.mem_iff.2 (List.mem_range.2 (List.getElem?_eq_some_iff.1 hj).1)) hn
    · rw [hw]; exact List.suffix_refl _
    · intro i c r hi
      rcases get i _ hi with hi | ⟨rfl, e⟩
      · exact h.closing i c r hi
      · have := congrArg (fun t : Task V => t.st.sent) e
        simp only [toStart_sent] at this
        cases this
    · intro _
      simp only
      rw [hf]
      exact h.told rfl
    · intro y hy
      exfalso
      have : (toSpawn (waitsOf jobs order) (old ++ [j]) left).holds = true := by simp only at hy; rw [hy]; rfl
      rw [hh] at this; cases this
    · intro h1
      simp only at h1
      rw [he] at h1; cases h1
  | @lockT m ts x log c r gs rest i hi =>
    rw [Option.toList_none, List.append_nil]
    have hold := h.holders
    simp only [Bool.toNat_false] at hold
    have hci := (h.task i _ hi).1
    simp only at hci
    subst hci
    have hil : c < ts.length := (List.getElem?_eq_some_iff.1 hi).1
    have hv := h.free (by simp only; omega)
    simp only at hv
    refine h.task_move hi ?_ ?_ ?_ ?_ ?_ ?_ ?_ ?_ ?_ ?_ ?_ ?_
    · rw [toInside_left]
      simp [List.filter_append, TaskSt.left]
    · intro k hk
      simp [List.filter_append, Ne.symm hk]
    · intro e he
      rcases List.mem_append.1 he with he | he
      · exact h.logged e he
      · simp only [List.mem_singleton] at he
        subst he; exact hil
    · rw [toInside_holds]; rfl
    · intro _
      rw [toInside_pending, total_snoc, ← hv]
    · left
      intro k t _ hk
      cases ht : t.st.holds with
      | false => rfl
      | true => have := countP_pos hk ht; omega
    · intro hf; rw [toInside_holds] at hf; cases hf
    · intro y g gs' rest' he
      cases gs <;> simp [toInside] at he
    · rw [toInside_sent]; rfl
    · intro hf; simp [TaskSt.sent] at hf
    · cases gs <;> simp [toInside]
    · intro _; rfl
  | @loadT m ts x l log c r g gs rest i hi =>
    rw [Option.toList_none, List.append_nil]
    have hold := h.holders
    simp only at hold
    have hl := Bool.toNat_le l
    refine h.task_move hi rfl (fun _ _ => rfl) h.logged rfl (fun _ => h.value i _ hi rfl) (.inr ⟨rfl, rfl⟩)
      (fun hf => by simp [TaskSt.holds] at hf) ?_ rfl (fun _ => rfl) (by simp) (fun _ => rfl)
    intro y g' gs' rest' he
    cases he; rfl
  | @storeT m ts x l log c r y g gs rest i hi =>
    rw [Option.toList_none, List.append_nil]
    have hold := h.holders
    simp only at hold
    have hl := Bool.toNat_le l
    have hy := h.seen i _ _ _ _ _ _ hi
    simp only at hy
    subst hy
    refine h.task_move hi ?_ (fun _ _ => rfl) h.logged ?_ ?_ ?_ ?_ ?_ ?_ (fun _ => rfl) ?_ ?_
    · rw [toInside_left]; rfl
    · rw [toInside_holds]; rfl
    · intro _
      rw [toInside_pending, ← applied_cons]
      exact h.value i _ hi rfl
    · left
      intro k t hne hk
      exact one_holder (by omega) hi rfl hne hk
    · intro hf; rw [toInside_holds] at hf; cases hf
    · intro y g gs' rest' he
      cases gs <;> simp [toInside] at he
    · rw [toInside_sent]; rfl
    · cases gs <;> simp [toInside]
    · intro hf; simp [TaskSt.holds] at hf
  | @unlockT m ts x log c r rest i hi =>
    rw [Option.toList_none, List.append_nil]
    have hold := h.holders
    simp only [Bool.toNat_true] at hold
    refine h.task_move hi ?_ (fun _ _ => rfl) h.logged ?_ ?_ (.inr ⟨rfl, rfl⟩) ?_ ?_ ?_ (fun _ => rfl) ?_ (fun _ => rfl)
    · rw [toStart_left]; rfl
    · rw [toStart_holds]; rfl
    · intro hf; rw [toStart_holds] at hf; cases hf
    · intro _
      exact .inr (h.value i _ hi rfl)
    · intro y g gs' rest' he
      cases rest <;> simp [toStart] at he
    · rw [toStart_sent]; rfl
    · cases rest <;> simp [toStart]
  | @park m ts x l log c r i hi =>
    rw [Option.toList_none, List.append_nil]
    exact h.task_move hi rfl (fun _ _ => rfl) h.logged rfl (fun hf => by simp [TaskSt.holds] at hf) (.inr ⟨rfl, rfl⟩)
      (fun _ => .inl ⟨rfl, rfl, rfl⟩) (by simp) rfl (fun _ => rfl) (by simp) (fun _ => rfl)
  | @closeT m ts x l log c r i hi =>
    rw [Option.toList_none, List.append_nil]
    exact h.task_move hi rfl (fun _ _ => rfl) h.logged rfl (fun hf => by simp [TaskSt.holds] at hf) (.inr ⟨rfl, rfl⟩)
      (fun _ => .inl ⟨rfl, rfl, rfl⟩) (by simp) rfl (fun _ => rfl) (by simp) (fun _ => rfl)
  | @meetJoin ts x l log c is st r i hi hs =>
    rw [Option.toList_none, List.append_nil]
    exact h.meet ho hi hs (toWait_spawned ..) (toWait_toDo _) (toWait_waits ..) (toWait_holds _) (toWait_ended _)
      (fun _ => by rw [toWait_future]; rfl)
  | @meetAwait ts x l log c is st r y i hi hs =>
    rw [Option.toList_none, List.append_nil]
    exact h.meet ho hi hs rfl rfl rfl rfl rfl (fun e => by rw [← e]; rfl)
  | @tell ts x l log i y is =>
    refine ⟨?_, ?_, h.task, h.logged, ?_, h.value, h.free, h.seen, ?_, ?_, h.closing, ?_, ?_, ?_⟩
    · simp only [toWait_spawned, toWait_toDo, List.append_nil]
    · simp only [toWait_spawned]; exact h.len
    · simp only [toWait_holds]; exact h.holders
    · intro k t hk
      simp only [toWait_waits]
      exact h.sent k t hk
    · simp only [toWait_waits]; exact h.suffix
    · intro _
      simp only [toWait_future, Option.toList_some, List.append_assoc]
      exact h.told rfl
    · intro z hz
      exact absurd hz (toWait_tell _ _)
    · intro he
      simp only [toWait_ended] at he
      cases he
  | @lockM ts x log =>
    rw [Option.toList_none, List.append_nil]
    have hold := h.holders
    simp only [Main.holds, Bool.toNat_false, Nat.add_zero] at hold
    refine ⟨h.spawned, h.len, h.task, h.logged, ?_, h.value, h.free, h.seen, h.sent, h.suffix, h.closing, h.told, by simp,
      by simp [Main.ended]⟩
    simp [Main.holds, hold]
  | @loadM ts x l log =>
    rw [Option.toList_none, List.append_nil]
    refine ⟨h.spawned, h.len, h.task, h.logged, h.holders, h.value, h.free, h.seen, h.sent, h.suffix, h.closing, h.told, ?_,
      by simp [Main.ended]⟩
    intro y hy
    cases hy; rfl
  | @tellM ts x l log y =>
    have hold := h.holders
    have hl := Bool.toNat_le l
    simp only [Main.holds, Bool.toNat_true] at hold
    refine ⟨h.spawned, h.len, h.task, h.logged, h.holders, h.value, h.free, h.seen, h.sent, h.suffix, h.closing,
      by simp [Main.ended], by simp, ?_⟩
    intro _
    have h1 := h.told rfl
    simp only [Main.future, List.append_nil] at h1
    have h2 : y = x := h.tell y rfl
    have h3 : x = total log v := h.free (by simp only; omega)
    rw [h1, h2, h3]
    rfl
  | @unlockM ts x log =>
    rw [Option.toList_none, List.append_nil]
    have hold := h.holders
    simp only [Main.holds, Bool.toNat_true] at hold
    refine ⟨h.spawned, h.len, h.task, h.logged, ?_, h.value, h.free, h.seen, h.sent, h.suffix, h.closing,
      by simp [Main.ended], by simp, fun _ => h.ended rfl⟩
    simp only [Main.holds, Bool.toNat_false, Nat.add_zero]
    omega

/-! ### The steps of the program are the moves -/

theorem task_start (unit : V) (c : Nat) (r : Option V) (rest : List (List (V → V))) :
    work (Mutex.new 0 0) rest (sendOff unit c r) = Task.proc unit ⟨c, r, toStart rest⟩ := by
  cases rest <;> rfl
theorem task_inside (unit : V) (c : Nat) (r : Option V) (gs : List (V → V)) (rest : List (List (V → V))) :
    update 0 gs (.unlock 0 (work (Mutex.new 0 0) rest (sendOff unit c r))) = Task.proc unit ⟨c, r, toInside gs rest⟩ := by
  cases gs <;> rfl
theorem task_after (unit : V) (c : Nat) (r : Option V) : after c r = Task.proc unit ⟨c, r, afterSend r⟩ := by
  cases r <;> rfl

theorem main_wait (unit zero : V) (cont : List Handle → Proc V (Event V)) (is : Waits V) :
    waits zero is (readOut (Mutex.new 0 0)) = (toWait is).proc unit zero cont := by
  match is with
  | [] => rfl
  | (i, none) :: is => rfl
  | (i, some _) :: is => rfl

theorem handles_append (c : Nat) (a b : List (Job V)) : handles c (a ++ b) = handles c a ++ handles (c + a.length) b := by
  induction a generalizing c with
  | nil => rfl
  | cons j a ih =>
    simp only [List.cons_append, handles, ih, List.length_cons]
    rw [show c + 1 + a.length = c + (a.length + 1) by omega]

theorem handles_get (c : Nat) (jobs : List (Job V)) (i : Nat) :
    (handles c jobs)[i]? = jobs[i]?.map fun j => handle j (c + i) := by
  induction jobs generalizing c i with
  | nil => simp [handles]
  | cons j jobs ih =>
    cases i with
    | zero => rfl
    | succ i =>
      simp only [handles, List.getElem?_cons_succ, ih]
      rw [show c + 1 + i = c + (i + 1) by omega]

theorem waitAll_eq (zero : V) (jobs : List (Job V)) (order : List Nat) (k : Proc V (Event V)) :
    waitAll zero (handles 0 jobs) order k = waits zero (waitsOf jobs order) k := by
  induction order with
  | nil => rfl
  | cons i is ih =>
    unfold waitAll waitsOf
    rw [List.filterMap_cons, handles_get, Nat.zero_add]
    cases jobs[i]? with
    | none => exact ih
    | some j =>
      simp only [Option.map_some, ih, handle]
      cases j.returns <;> rfl

theorem main_spawn (unit zero : V) (jobs : List (Job V)) (order : List Nat) (old left : List (Job V)) (h : old ++ left = jobs) :
    spawnAll unit (Mutex.new 0 0) left (fun hs => rest zero order (handles 0 old ++ hs)) =
      (toSpawn (waitsOf jobs order) old left).proc unit zero (rest zero order) := by
  cases left with
  | nil =>
    rw [List.append_nil] at h
    subst h
    unfold toSpawn
    rw [← main_wait, ← waitAll_eq]
    simp only [spawnAll, List.append_nil, rest]
  | cons j left =>
    simp only [spawnAll, spawnJob, toSpawn, Main.proc, handle]
    cases j.returns <;> rfl

section
variable {unit zero v : V} {order : List Nat}

theorem procs_cases {a : St V} {i : Nat} {p : Proc V (Event V)} (h : (conf unit zero v order a).procs[i]? = some p) :
    (i = 0 ∧ p = a.main.proc unit zero (rest zero order)) ∨ ∃ j t, i = j + 1 ∧ a.tasks[j]? = some t ∧ p = t.proc unit := by
  match i with
  | 0 => exact .inl ⟨rfl, by simpa [conf] using h.symm⟩
  | j + 1 =>
    simp only [conf, List.getElem?_cons_succ, List.getElem?_map, Option.map_eq_some_iff] at h
    obtain ⟨q, hq, rfl⟩ := h
    exact .inr ⟨j, q, rfl, hq, rfl⟩

/-- Who executes an instruction. -/
inductive Who (unit zero : V) (order : List Nat) (a : St V) : Nat → Proc V (Event V) → Prop
  | done {i} : Who unit zero order a i .done
  | spawn {old j left} (h : a.main = .spawn old j left) : Who unit zero order a 0 (.make 0 fun c =>
      .go (work (Mutex.new 0 0) j.sections (sendOff unit c j.returns))
        (spawnAll unit (Mutex.new 0 0) left fun hs => rest zero order (handles 0 old ++ handle j c :: hs)))
  | going {old j left} (h : a.main = .going old j left) : Who unit zero order a 0
      (.go (work (Mutex.new 0 0) j.sections (sendOff unit old.length j.returns))
        (spawnAll unit (Mutex.new 0 0) left fun hs => rest zero order (handles 0 old ++ handle j old.length :: hs)))
  | join {i is} (h : a.main = .wait i none is) :
      Who unit zero order a 0 (.recv i fun _ => waits zero is (readOut (Mutex.new 0 0)))
  | await {i y is} (h : a.main = .wait i (some y) is) : Who unit zero order a 0
      (.recv i fun x => .emit (.awaited i (x.getD zero)) (waits zero is (readOut (Mutex.new 0 0))))
  | told {i y is} (h : a.main = .told i y is) :
      Who unit zero order a 0 (.emit (.awaited i y) (waits zero is (readOut (Mutex.new 0 0))))
  | lock (h : a.main = .lock) : Who unit zero order a 0 (.lock 0 (.load 0 fun x => .emit (.result x) (.unlock 0 .done)))
  | load (h : a.main = .load) : Who unit zero order a 0 (.load 0 fun x => .emit (.result x) (.unlock 0 .done))
  | tell {x} (h : a.main = .tell x) : Who unit zero order a 0 (.emit (.result x) (.unlock 0 .done))
  | unlock (h : a.main = .unlock) : Who unit zero order a 0 (.unlock 0 .done)
  | tstart {i : Nat} {c r gs r'} (h : a.tasks[i]? = some ⟨c, r, .start gs r'⟩) : Who unit zero order a (i + 1)
      (.lock 0 (update 0 gs (.unlock 0 (work (Mutex.new 0 0) r' (sendOff unit c r)))))
  | treading {i : Nat} {c r g gs r'} (h : a.tasks[i]? = some ⟨c, r, .reading g gs r'⟩) : Who unit zero order a (i + 1)
      (.load 0 fun x => .store 0 (g x) (update 0 gs (.unlock 0 (work (Mutex.new 0 0) r' (sendOff unit c r)))))
  | tloaded {i : Nat} {c r x g gs r'} (h : a.tasks[i]? = some ⟨c, r, .loaded x g gs r'⟩) : Who unit zero order a (i + 1)
      (.store 0 (g x) (update 0 gs (.unlock 0 (work (Mutex.new 0 0) r' (sendOff unit c r)))))
  | tleaving {i : Nat} {c r r'} (h : a.tasks[i]? = some ⟨c, r, .leaving r'⟩) : Who unit zero order a (i + 1)
      (.unlock 0 (work (Mutex.new 0 0) r' (sendOff unit c r)))
  | tsending {i : Nat} {c r} (h : a.tasks[i]? = some ⟨c, r, .sending⟩) : Who unit zero order a (i + 1)
      (.send c (r.getD unit) (after c r))
  | twaiting {i : Nat} {c r} (h : a.tasks[i]? = some ⟨c, r, .waiting⟩) : Who unit zero order a (i + 1)
      (.parked c (r.getD unit) (after c r))
  | tclosing {i : Nat} {c r} (h : a.tasks[i]? = some ⟨c, r, .closing⟩) : Who unit zero order a (i + 1) (.close c .done)

theorem who {a : St V} {i : Nat} {p : Proc V (Event V)} (h : (conf unit zero v order a).procs[i]? = some p) :
    Who unit zero order a i p := by
  rcases procs_cases h with ⟨rfl, rfl⟩ | ⟨j, t, rfl, ht, rfl⟩
  · cases hm : a.main with
    | spawn old j left => exact .spawn hm
    | going old j left => exact .going hm
    | wait i r is => cases r with
      | none => exact .join hm
      | some y => exact .await hm
    | told i y is => exact .told hm
    | lock => exact .lock hm
    | load => exact .load hm
    | tell x => exact .tell hm
    | unlock => exact .unlock hm
    | fin => exact .done
  · obtain ⟨c, r, st⟩ := t
    cases st with
    | start => exact .tstart ht
    | reading => exact .treading ht
    | loaded => exact .tloaded ht
    | leaving => exact .tleaving ht
    | sending => exact .tsending ht
    | waiting => exact .twaiting ht
    | closing => exact .tclosing ht
    | over => exact .done

theorem upd_upd {β : Type} (f : Nat → β) (a : Nat) (b c : β) : upd (upd f a b) a c = upd f a c := by
  funext x; unfold upd; split <;> rfl
theorem upd_same {β : Type} (f : Nat → β) (a : Nat) (b : β) : upd f a b a = b := by simp [upd]

theorem channel_set {ts : List (Task V)} {i : Nat} {t t' : Task V} (h : ts[i]? = some t) (hc : t'.channel = t.channel) :
    (ts.set i t').map Task.channel = ts.map Task.channel := by
  rw [List.map_set, hc]
  obtain ⟨hil, h2⟩ := List.getElem?_eq_some_iff.1 h
  apply List.ext_getElem?
  intro k
  rw [List.getElem?_set]
  by_cases hk : i = k
  · subst hk
    simp [hil, h2]
  · rw [if_neg hk]

/-- A move of a task that leaves its channel alone. -/
theorem conf_task {a : St V} {i : Nat} {t t' : Task V} (h : a.tasks[i]? = some t) (hc : t'.channel = t.channel) (x : V) (l : Bool)
    (log : List (Nat × List (V → V))) :
    conf unit zero v order ⟨a.main, a.tasks.set i t', x, l, log⟩ =
      { (conf unit zero v order a).to (i + 1) (t'.proc unit) with
        locks := upd (conf unit zero v order a).locks 0 l, vars := upd (conf unit zero v order a).vars 0 x } := by
  simp only [conf, Config.to, List.map_set, List.set_cons_succ, upd_upd, Config.mk.injEq, true_and, and_true, and_self]
  rw [← List.map_set, channel_set h hc]

theorem upd_id {β : Type} (f : Nat → β) (a : Nat) : upd f a (f a) = f := by
  funext x; unfold upd; split
  · next h => rw [h]
  · rfl

theorem chan_cases {a : St V} {c : Nat} {ch : Chan V} (h : (conf unit zero v order a).chans[c]? = some ch) :
    ch.buf = [] ∧ ch.cap = 0 ∧
    (ch.closed = true → ∃ t, a.tasks[c]? = some t ∧ t.returns.isSome = true ∧ t.st.sent = true ∧ t.isOver = true) := by
  simp only [conf] at h
  have hf : ∀ {k : Nat}, a.main.fresh[k]? = some ch → ch = ⟨0, [], false⟩ := by
    intro k hk
    cases hm : a.main <;> rw [hm] at hk <;> simp [Main.fresh] at hk
    cases k <;> simp at hk
    exact hk.symm
  by_cases hl : c < a.tasks.length
  · rw [List.getElem?_append_left (by simpa using hl), List.getElem?_map, List.getElem?_eq_getElem hl] at h
    simp only [Option.map_some, Option.some.injEq] at h
    subst h
    refine ⟨rfl, rfl, fun hc => ⟨_, List.getElem?_eq_getElem hl, ?_⟩⟩
    simp only [Task.channel, Bool.and_eq_true] at hc
    refine ⟨hc.1, ?_, hc.2⟩
    have h2 := hc.2
    generalize a.tasks[c] = t at h2
    obtain ⟨c', r, st⟩ := t
    cases st <;> simp [Task.isOver] at h2
    rfl
  · rw [List.getElem?_append_right (by simpa using hl)] at h
    rw [hf h]
    exact ⟨rfl, rfl, fun hc => by cases hc⟩

theorem sends {a : St V} {i c : Nat} {y : V} {k : Proc V (Event V)} (h : SendsAt (conf unit zero v order a) i c y k) :
    ∃ j r st, i = j + 1 ∧ a.tasks[j]? = some ⟨c, r, st⟩ ∧ (st = .sending ∨ st = .waiting) ∧ y = r.getD unit ∧ k = after c r := by
  rcases h with h | h
  · cases who h with
    | tsending w => exact ⟨_, _, _, rfl, w, .inl rfl, rfl, rfl⟩
  · cases who h with
    | twaiting w => exact ⟨_, _, _, rfl, w, .inr rfl, rfl, rfl⟩

theorem sent_channel {c : Nat} {r : Option V} {st st' : TaskSt V} (h : st.sent = false) (h' : st' ≠ .over) :
    (Task.mk c r st').channel = (Task.mk c r st).channel := by
  cases st <;> cases st' <;> simp_all [TaskSt.sent, Task.channel, Task.isOver]

theorem toInside_over (gs : List (V → V)) (rest) : toInside gs rest ≠ .over := by cases gs <;> simp [toInside]
theorem toStart_over (rest : List (List (V → V))) : toStart rest ≠ .over := by cases rest <;> simp [toStart]
theorem toWait_fresh (is : Waits V) : (toWait is).fresh = [] := by cases is <;> rfl
theorem toSpawn_fresh (w : Waits V) (old left : List (Job V)) : (toSpawn w old left).fresh = [] := by
  cases left with
  | nil => exact toWait_fresh w
  | cons => rfl
theorem going_fresh (old j) (left : List (Job V)) : (Main.going old j left).fresh = [⟨0, [], false⟩] := rfl
theorem wait_fresh (i r) (is : Waits V) : (Main.wait i r is).fresh = [] := rfl
theorem told_fresh (i y) (is : Waits V) : (Main.told i y is).fresh = [] := rfl

theorem afterSend_channel (c : Nat) (r : Option V) {st : TaskSt V} (hs : st = .sending ∨ st = .waiting) :
    (Task.mk c r (afterSend r)).channel = (Task.mk c r st).channel := by
  rcases hs with rfl | rfl <;> cases r <;> rfl

/-- Every step of the program is a move. -/
theorem step_move {jobs : List (Job V)} {a : St V} {tr : List (Event V)} (hI : Inv v jobs order a tr) {e : Option (Event V)}
    {s' : Config V (Event V)} (h : Step (conf unit zero v order a) e s') :
    ∃ a', s' = conf unit zero v order a' ∧ Move unit (waitsOf jobs order) a e a' := by
  obtain ⟨m, ts, x, l, log⟩ := a
  have notClosed : ∀ {i c : Nat} {r : Option V} {st : TaskSt V} {ch : Chan V}, ts[i]? = some ⟨c, r, st⟩ →
      (conf unit zero v order ⟨m, ts, x, l, log⟩).chans[c]? = some ch → ch.closed = true → (Task.mk c r st).isOver = true := by
    intro i c r st ch hi hch hcl
    obtain ⟨t, h1, _, _, h3⟩ := (chan_cases hch).2.2 hcl
    have hci : c = i := (hI.task i _ hi).1
    subst hci
    simp only at h1
    rw [hi] at h1
    cases h1
    exact h3
  cases h with
  | emit hc h =>
    cases who h with
    | told w => simp only at w; subst w; exact ⟨_, by rw [main_wait unit zero (rest zero order)]; simp [conf, Config.to, toWait_fresh, told_fresh], .tell⟩
    | tell w => simp only at w; subst w; exact ⟨_, rfl, .tellM⟩
  | tau hc h => cases who h
  | go hc h =>
    cases who h with
    | @going old j left w =>
      simp only at w; subst w
      refine ⟨_, ?_, .go⟩
      have hsp := hI.spawned
      have hln := hI.len
      simp only [Main.spawned, Main.toDo] at hsp hln
      have h1 : ∀ hs, handles 0 old ++ handle j old.length :: hs = handles 0 (old ++ [j]) ++ hs := by
        intro hs
        rw [handles_append]
        simp [handles]
      simp only [conf, h1, main_spawn unit zero jobs order (old ++ [j]) left (by simpa using hsp), toSpawn_fresh, going_fresh,
        task_start, List.map_append, List.map_cons, List.map_nil, List.append_nil, Config.mk.injEq, and_true]
      refine ⟨by simp, ?_⟩
      congr 1
      have : (Task.mk old.length j.returns (toStart j.sections)).channel = ⟨0, [], false⟩ := by
        cases j.sections <;> simp [Task.channel, Task.isOver, toStart]
      rw [this]
  | make hc h =>
    cases who h with
    | @spawn old j left w =>
      simp only at w; subst w
      refine ⟨_, ?_, .make⟩
      have hln := hI.len
      simp only [Main.spawned] at hln
      simp [conf, Config.to, Main.fresh, Main.proc, hln]
  | park hc h hch hcl =>
    cases who h with
    | tsending w =>
      refine ⟨_, ?_, .park w⟩
      rw [conf_task (a := ⟨m, ts, x, l, log⟩) w (sent_channel rfl (by simp))]
      simp only [conf, upd_upd]
      rfl
  | sendBuf hc h hch hcl hb =>
    have := (chan_cases hch).2.1
    omega
  | sendClosed hc h hch hcl =>
    obtain ⟨j, r, st, rfl, h1, h2, _⟩ := sends h
    have := notClosed h1 hch hcl
    rcases h2 with rfl | rfl <;> cases this
  | meet hc h hj hch hcl hb =>
    obtain ⟨i, r, st, rfl, h1, h2, rfl, rfl⟩ := sends h
    cases who hj with
    | join hm =>
      simp only at hm; subst hm
      refine ⟨_, ?_, .meetJoin h1 h2⟩
      rw [main_wait unit zero (rest zero order), task_after unit]
      simp only [conf, Config.to, List.set_cons_succ, List.set_cons_zero, List.map_set, toWait_fresh, wait_fresh,
        Config.mk.injEq, true_and, and_true]
      rw [← List.map_set, channel_set h1 (afterSend_channel _ _ h2)]
    | await hm =>
      simp only at hm; subst hm
      refine ⟨_, ?_, .meetAwait h1 h2⟩
      rw [task_after unit]
      simp only [conf, Config.to, List.set_cons_succ, List.set_cons_zero, List.map_set, told_fresh, wait_fresh,
        Config.mk.injEq, and_true, Main.proc, Option.getD_some]
      refine ⟨trivial, ?_⟩
      rw [← List.map_set, channel_set h1 (afterSend_channel _ _ h2)]
  | meetPoll hc h hj hch hcl hb => cases who hj
  | recvBuf hc hj hch hb => rw [(chan_cases hch).1] at hb; cases hb
  | pollBuf hc hj hch hb => rw [(chan_cases hch).1] at hb; cases hb
  | recvClosed hc hj hch hcl hb =>
    exfalso
    obtain ⟨t, h1, _, h2, _⟩ := (chan_cases hch).2.2 hcl
    have h3 := (hI.sent _ t h1).1 h2
    cases who hj with
    | join hm => simp only at hm; subst hm; simp [Main.waits] at h3
    | await hm => simp only at hm; subst hm; simp [Main.waits] at h3
  | pollClosed hc hj hch hcl hb => cases who hj
  | pollDefault hc hj hch hcl hb hn => cases who hj
  | close hc h hch hcl =>
    cases who h with
    | @tclosing i c' r w =>
      refine ⟨_, ?_, .closeT w⟩
      have hci := (hI.task i _ w).1
      simp only at hci
      subst hci
      have hr := hI.closing _ _ _ w
      have hil := (List.getElem?_eq_some_iff.1 w).1
      simp only at hil
      have hb := (chan_cases hch)
      simp only [conf, Config.to, List.set_cons_succ, List.map_set, Config.mk.injEq, and_true]
      refine ⟨rfl, ?_⟩
      rw [List.set_append_left _ _ (by simpa using hil), hb.1, hb.2.1]
      simp [Task.channel, hr, Task.isOver]
  | closeClosed hc h hch hcl =>
    cases who h with
    | tclosing w => exact absurd (notClosed w hch hcl) (by simp [Task.isOver])
  | lock hc h hl =>
    cases who h with
    | lock w =>
      simp only at w; subst w
      have : l = false := by simpa [conf, upd] using hl
      subst this
      exact ⟨_, by simp [conf, Config.to, upd_upd, Main.fresh, Main.proc], .lockM⟩
    | tstart w =>
      have : l = false := by simpa [conf, upd] using hl
      subst this
      refine ⟨_, ?_, .lockT w⟩
      rw [conf_task (a := ⟨m, ts, x, false, log⟩) w (sent_channel rfl (toInside_over _ _)), task_inside]
      simp only [conf, Config.to, upd_upd]
  | tryLock hc h hl => cases who h
  | tryLockFails hc h hl => cases who h
  | unlock hc h hl =>
    cases who h with
    | unlock w =>
      simp only at w; subst w
      have : l = true := by simpa [conf, upd] using hl
      subst this
      exact ⟨_, by simp [conf, Config.to, upd_upd, Main.fresh, Main.proc], .unlockM⟩
    | tleaving w =>
      have : l = true := by simpa [conf, upd] using hl
      subst this
      refine ⟨_, ?_, .unlockT w⟩
      rw [conf_task (a := ⟨m, ts, x, true, log⟩) w (sent_channel rfl (toStart_over _)), task_start]
      simp only [conf, Config.to, upd_upd]
  | unlockFree hc h hl =>
    exfalso
    have hold := hI.holders
    cases who h with
    | unlock w =>
      simp only at w; subst w
      have : l = false := by simpa [conf, upd] using hl
      subst this
      simp [Main.holds] at hold
    | tleaving w =>
      have : l = false := by simpa [conf, upd] using hl
      subst this
      have := countP_pos w rfl
      simp only [Bool.toNat_false] at hold this
      omega
  | load hc h =>
    cases who h with
    | load w =>
      simp only at w; subst w
      exact ⟨_, by simp [conf, Config.to, upd_same, Main.fresh, Main.proc], .loadM⟩
    | treading w =>
      refine ⟨_, ?_, .loadT w⟩
      rw [conf_task (a := ⟨m, ts, x, l, log⟩) w (sent_channel rfl (by simp))]
      simp only [conf, Config.to, upd_upd, upd_same]
      rfl
  | store hc h =>
    cases who h with
    | tloaded w =>
      refine ⟨_, ?_, .storeT w⟩
      rw [conf_task (a := ⟨m, ts, x, l, log⟩) w (sent_channel rfl (toInside_over _ _)), task_inside]
      simp only [conf, Config.to, upd_upd]

/-! ### Progress -/

theorem get_task {a : St V} {i : Nat} {t : Task V} (h : a.tasks[i]? = some t) :
    (conf unit zero v order a).procs[i + 1]? = some (t.proc unit) := by
  simp [conf, h]

theorem holder_step {jobs : List (Job V)} {a : St V} {tr : List (Event V)} (hI : Inv v jobs order a tr) {i : Nat} {t : Task V}
    (h : a.tasks[i]? = some t) (ht : t.st.holds = true) : ∃ e s', Step (conf unit zero v order a) e s' := by
  have hg := get_task (unit := unit) (zero := zero) (v := v) (order := order) h
  have hold := hI.holders
  have hp := countP_pos h ht
  obtain ⟨c, r, st⟩ := t
  cases st with
  | reading => exact ⟨_, _, .load rfl hg⟩
  | loaded => exact ⟨_, _, .store rfl hg⟩
  | leaving =>
    have : a.locked = true := by
      cases hl : a.locked with
      | true => rfl
      | false => rw [hl] at hold; simp only [Bool.toNat_false] at hold; omega
    exact ⟨_, _, .unlock rfl hg (by simp [conf, upd, this])⟩
  | _ => cases ht

theorem locked_step {jobs : List (Job V)} {a : St V} {tr : List (Event V)} (hI : Inv v jobs order a tr) (hl : a.locked = true)
    (hm : a.main.holds = false) : ∃ e s', Step (conf unit zero v order a) e s' := by
  have hold := hI.holders
  rw [hl, hm] at hold
  simp only [Bool.toNat_false, Bool.toNat_true, Nat.add_zero] at hold
  obtain ⟨t, h1, h2⟩ := List.countP_pos_iff.1 (show 0 < a.tasks.countP (fun t => t.st.holds) by omega)
  obtain ⟨i, hi⟩ := List.getElem?_of_mem h1
  exact holder_step hI hi h2

/-- The end: main and all tasks are done. -/
def St.finished (a : St V) : Prop := a.main = .fin ∧ ∀ t ∈ a.tasks, t.st = .over

/-- The program can go on until it is finished. -/
theorem progress {jobs : List (Job V)} {a : St V} {tr : List (Event V)} (hI : Inv v jobs order a tr) (hn : ¬ a.finished) :
    ∃ e s', Step (conf unit zero v order a) e s' := by
  have h0 : (conf unit zero v order a).procs[0]? = some (a.main.proc unit zero (rest zero order)) := rfl
  have hold := hI.holders
  cases hm : a.main with
  | spawn old j left => rw [hm] at h0; exact ⟨_, _, .make rfl h0⟩
  | going old j left => rw [hm] at h0; exact ⟨_, _, .go rfl h0⟩
  | told i y is => rw [hm] at h0; exact ⟨_, _, .emit rfl h0⟩
  | tell x => rw [hm] at h0; exact ⟨_, _, .emit rfl h0⟩
  | load => rw [hm] at h0; exact ⟨_, _, .load rfl h0⟩
  | unlock =>
    have : a.locked = true := by
      cases hl : a.locked with
      | true => rfl
      | false => rw [hl, hm] at hold; simp [Main.holds] at hold
    rw [hm] at h0
    exact ⟨_, _, .unlock rfl h0 (by simp [conf, upd, this])⟩
  | lock =>
    cases hl : a.locked with
    | true => exact locked_step hI hl (by rw [hm]; rfl)
    | false => rw [hm] at h0; exact ⟨_, _, .lock rfl h0 (by simp [conf, upd, hl])⟩
  | wait c r is =>
    have hsuf := hI.suffix
    rw [hm] at hsuf
    obtain ⟨j, hj, _⟩ := mem_waitsOf (hsuf.subset (List.mem_cons_self ..))
    have hlen := hI.len
    rw [hm] at hlen
    have hcl : c < a.tasks.length := by
      rw [hlen]; exact (List.getElem?_eq_some_iff.1 hj).1
    have ht := List.getElem?_eq_getElem hcl
    generalize a.tasks[c] = t at ht
    have hsent := hI.sent c t ht
    rw [hm] at hsent
    have hns : t.st.sent = false := by
      cases hs : t.st.sent with
      | false => rfl
      | true => exact absurd (hsent.1 hs) (by simp [Main.waits])
    have hc : t.chan = c := (hI.task c t ht).1
    have hg := get_task (unit := unit) (zero := zero) (v := v) (order := order) ht
    obtain ⟨c', r', st⟩ := t
    simp only at hc hns
    subst hc
    have hch : (conf unit zero v order a).chans[c']? = some ⟨0, [], false⟩ := by
      simp only [conf]
      rw [List.getElem?_append_left (by simpa using hcl), List.getElem?_map, ht]
      simp only [Option.map_some, Task.channel, Option.some.injEq, Chan.mk.injEq, true_and]
      cases st <;> simp [TaskSt.sent] at hns <;> simp [Task.isOver]
    have meets : SendsAt (conf unit zero v order a) (c' + 1) c' (r'.getD unit) (after c' r') →
        ∃ e s', Step (conf unit zero v order a) e s' := by
      intro hs
      rw [hm] at h0
      cases r with
      | none => exact ⟨_, _, .meet rfl hs h0 hch rfl rfl⟩
      | some y => exact ⟨_, _, .meet rfl hs h0 hch rfl rfl⟩
    cases st with
    | start =>
      cases hl : a.locked with
      | true => exact locked_step hI hl (by rw [hm]; rfl)
      | false => exact ⟨_, _, .lock rfl hg (by simp [conf, upd, hl])⟩
    | reading => exact holder_step hI ht rfl
    | loaded => exact holder_step hI ht rfl
    | leaving => exact holder_step hI ht rfl
    | sending => exact meets (.fresh hg)
    | waiting => exact meets (.waiting hg)
    | closing => cases hns
    | over => cases hns
  | fin =>
    have : ∃ t ∈ a.tasks, t.st ≠ .over := by
      apply Classical.byContradiction
      intro hno
      exact hn ⟨hm, fun t ht => Classical.byContradiction fun h => hno ⟨t, ht, h⟩⟩
    obtain ⟨t, h1, h2⟩ := this
    obtain ⟨i, hi⟩ := List.getElem?_of_mem h1
    have hs : t.st.sent = true := (hI.sent i t hi).2 (by rw [hm]; simp [Main.waits])
    have hg := get_task (unit := unit) (zero := zero) (v := v) (order := order) hi
    have hil := (List.getElem?_eq_some_iff.1 hi).1
    have hc : t.chan = i := (hI.task i t hi).1
    obtain ⟨c, r, st⟩ := t
    cases st with
    | closing =>
      simp only at hc
      subst hc
      refine ⟨_, _, .close (ch := ⟨0, [], false⟩) rfl hg ?_ rfl⟩
      simp only [conf]
      rw [List.getElem?_append_left (by simpa using hil), List.getElem?_map, hi]
      simp [Task.channel, Task.isOver]
    | over => exact absurd rfl h2
    | _ => cases hs

/-! ### Termination -/

def sectionsWeight (l : List (List (V → V))) : Nat := (l.map fun gs => 2 * gs.length + 2).sum
def TaskSt.weight : TaskSt V → Nat
  | .start gs rest => 2 * gs.length + 2 + sectionsWeight rest + 3
  | .reading _ gs rest => 2 * gs.length + 3 + sectionsWeight rest + 3
  | .loaded _ _ gs rest => 2 * gs.length + 2 + sectionsWeight rest + 3
  | .leaving rest => 1 + sectionsWeight rest + 3
  | .sending => 3
  | .waiting => 2
  | .closing => 1
  | .over => 0
def Job.weight (j : Job V) : Nat := sectionsWeight j.sections + 5
def Main.weight (w : Waits V) : Main V → Nat
  | .spawn _ j left => j.weight + (left.map Job.weight).sum + 2 * w.length + 4
  | .going _ j left => j.weight - 1 + (left.map Job.weight).sum + 2 * w.length + 4
  | .wait _ _ is => 2 * is.length + 2 + 4
  | .told _ _ is => 2 * is.length + 1 + 4
  | .lock => 4
  | .load => 3
  | .tell _ => 2
  | .unlock => 1
  | .fin => 0
def St.weight (w : Waits V) (a : St V) : Nat := a.main.weight w + (a.tasks.map fun t => t.st.weight).sum

theorem toStart_weight (rest : List (List (V → V))) : (toStart rest).weight = sectionsWeight rest + 3 := by
  cases rest with
  | nil => rfl
  | cons gs rest => simp [toStart, TaskSt.weight, sectionsWeight]
theorem toInside_weight (gs : List (V → V)) (rest) : (toInside gs rest).weight = 2 * gs.length + 1 + sectionsWeight rest + 3 := by
  cases gs with
  | nil => simp [toInside, TaskSt.weight]
  | cons g gs => simp only [toInside, TaskSt.weight, List.length_cons]; omega
theorem toWait_weight (w is : Waits V) : (toWait is).weight w = 2 * is.length + 4 := by
  cases is with
  | nil => rfl
  | cons => simp only [toWait, Main.weight, List.length_cons]; omega
theorem toSpawn_weight (w : Waits V) (old left : List (Job V)) :
    (toSpawn w old left).weight w = (left.map Job.weight).sum + 2 * w.length + 4 := by
  cases left with
  | nil => simp [toSpawn, toWait_weight]
  | cons => simp [toSpawn, Main.weight]
theorem afterSend_weight (r : Option V) : (afterSend r).weight ≤ 1 := by cases r <;> simp [afterSend, TaskSt.weight]

theorem sum_set {ts : List (Task V)} {i : Nat} {t t' : Task V} (h : ts[i]? = some t) :
    ((ts.set i t').map fun t => t.st.weight).sum + t.st.weight = (ts.map fun t => t.st.weight).sum + t'.st.weight := by
  induction ts generalizing i with
  | nil => simp at h
  | cons a ts ih =>
    cases i with
    | zero =>
      simp only [List.getElem?_cons_zero, Option.some.injEq] at h
      subst h
      simp only [List.set_cons_zero, List.map_cons, List.sum_cons]
      omega
    | succ i =>
      simp only [List.getElem?_cons_succ] at h
      have := ih h
      simp only [List.set_cons_succ, List.map_cons, List.sum_cons]
      omega

theorem weight_task {w : Waits V} {m m' : Main V} {ts : List (Task V)} {x x' : V} {l l' : Bool} {log log' : List (Nat × List (V → V))}
    {i : Nat} {t t' : Task V} (h : ts[i]? = some t) (ht : t'.st.weight < t.st.weight) (hm : m'.weight w ≤ m.weight w) :
    St.weight w ⟨m', ts.set i t', x', l', log'⟩ < St.weight w ⟨m, ts, x, l, log⟩ := by
  have := sum_set (t' := t') h
  simp only [St.weight]
  omega

theorem weight_main {w : Waits V} {m m' : Main V} {ts : List (Task V)} {x x' : V} {l l' : Bool} {log log' : List (Nat × List (V → V))}
    (hm : m'.weight w < m.weight w) : St.weight w ⟨m', ts, x', l', log'⟩ < St.weight w ⟨m, ts, x, l, log⟩ := by
  simp only [St.weight]
  omega

theorem move_weight {w : Waits V} {a a' : St V} {e : Option (Event V)} (h : Move unit w a e a') : a'.weight w < a.weight w := by
  cases h with
  | @make old j left =>
    refine weight_main ?_
    have : 0 < j.weight := by unfold Job.weight; omega
    simp only [Main.weight]
    omega
  | @go old j left =>
    simp only [St.weight, toSpawn_weight, List.map_append, List.sum_append, List.map_cons, List.map_nil, List.sum_cons,
      List.sum_nil, toStart_weight]
    rw [show (Main.going old j left).weight w = j.weight - 1 + (left.map Job.weight).sum + 2 * w.length + 4 from rfl,
      show j.weight = sectionsWeight j.sections + 5 from rfl]
    omega
  | lockT h => exact weight_task h (by rw [toInside_weight]; simp only [TaskSt.weight]; omega) (Nat.le_refl _)
  | loadT h => exact weight_task h (by simp only [TaskSt.weight]; omega) (Nat.le_refl _)
  | storeT h => exact weight_task h (by rw [toInside_weight]; simp only [TaskSt.weight]; omega) (Nat.le_refl _)
  | unlockT h => exact weight_task h (by rw [toStart_weight]; simp only [TaskSt.weight]; omega) (Nat.le_refl _)
  | park h => exact weight_task h (by simp [TaskSt.weight]) (Nat.le_refl _)
  | @meetJoin _ _ _ _ c is st r i h hs =>
    have h2 := afterSend_weight r
    refine weight_task h ?_ ?_
    · have : 1 < st.weight := by rcases hs with rfl | rfl <;> simp [TaskSt.weight]
      simp only
      omega
    · rw [toWait_weight]; simp only [Main.weight]; omega
  | @meetAwait _ _ _ _ c is st r y i h hs =>
    have h2 := afterSend_weight r
    refine weight_task h ?_ ?_
    · have : 1 < st.weight := by rcases hs with rfl | rfl <;> simp [TaskSt.weight]
      simp only
      omega
    · simp only [Main.weight]; omega
  | tell => exact weight_main (by rw [toWait_weight]; simp only [Main.weight]; omega)
  | closeT h => exact weight_task h (by simp [TaskSt.weight]) (Nat.le_refl _)
  | lockM => exact weight_main (by simp [Main.weight])
  | loadM => exact weight_main (by simp [Main.weight])
  | tellM => exact weight_main (by simp [Main.weight])
  | unlockM => exact weight_main (by simp [Main.weight])

/-! ### Executions -/

def initial (v : V) (jobs : List (Job V)) (order : List Nat) : St V := ⟨toSpawn (waitsOf jobs order) [] jobs, [], v, false, []⟩

theorem program_conf (jobs : List (Job V)) : program unit zero v jobs order = conf unit zero v order (initial v jobs order) := by
  have h := main_spawn unit zero jobs order [] jobs rfl
  simp only [handles, List.nil_append] at h
  simp only [program, start, conf, initial, ← h, toSpawn_fresh, List.map_nil, List.append_nil, Config.mk.injEq, and_true, true_and]
  refine ⟨rfl, ?_, ?_⟩ <;> funext k <;> simp [upd]

theorem initial_inv (v : V) {jobs : List (Job V)} {order : List Nat} (ho : order.Perm (List.range jobs.length)) :
    Inv v jobs order (initial v jobs order) [] := by
  unfold initial
  cases jobs with
  | nil =>
    have : order = [] := by simpa using ho
    subst this
    exact { spawned := rfl, len := rfl, task := by simp, logged := by simp, holders := rfl, value := by simp, free := fun _ => rfl,
            seen := by simp, sent := by simp, suffix := List.suffix_refl _, closing := by simp, told := fun _ => rfl,
            tell := fun x hx => (by cases hx), ended := fun h => by cases h }
  | cons j js =>
    exact { spawned := rfl, len := rfl, task := by simp, logged := by simp, holders := rfl, value := by simp, free := fun _ => rfl,
            seen := by simp, sent := by simp, suffix := List.suffix_refl _, closing := by simp,
            told := fun _ => by rw [← awaits_waitsOf]; rfl, tell := fun x hx => (by cases hx), ended := fun h => by cases h }

theorem run_inv {jobs : List (Job V)} (ho : order.Perm (List.range jobs.length)) {tr : List (Event V)} {s : Config V (Event V)}
    (h : Run (program unit zero v jobs order) tr s) : ∃ a, s = conf unit zero v order a ∧ Inv v jobs order a tr := by
  induction h with
  | nil => exact ⟨_, program_conf jobs, initial_inv v ho⟩
  | step r h ih =>
    obtain ⟨a, rfl, hI⟩ := ih
    obtain ⟨a', rfl, hm⟩ := step_move hI h
    exact ⟨a', rfl, inv_move ho hI hm⟩

theorem ended_interleaving {jobs : List (Job V)} {a : St V} {tr : List (Event V)} (hI : Inv v jobs order a tr)
    (he : a.main.ended = true) : Interleaving jobs a.log := by
  have hs : a.main.spawned jobs = jobs ∧ a.main.waits (waitsOf jobs order) = [] := by
    cases hm : a.main <;> rw [hm] at he <;> first | exact ⟨rfl, rfl⟩ | cases he
  have hlen := hI.len
  rw [hs.1] at hlen
  refine ⟨fun e he => hlen ▸ hI.logged e he, fun i j hj => ?_⟩
  have hil : i < a.tasks.length := by rw [hlen]; exact (List.getElem?_eq_some_iff.1 hj).1
  have ht := List.getElem?_eq_getElem hil
  obtain ⟨_, j', h1, _, h2⟩ := hI.task i _ ht
  rw [hj] at h1
  cases h1
  have hsent := (hI.sent i _ ht).2 (by rw [hs.2]; simp)
  have : (a.tasks[i]).st.left = [] := by
    generalize a.tasks[i].st = st at hsent
    cases st <;> first | rfl | cases hsent
  rw [this, List.append_nil] at h2
  exact h2

theorem ended_of_finished {jobs : List (Job V)} {a : St V} {tr : List (Event V)} (hI : Inv v jobs order a tr)
    (hf : a.finished) : (∀ p ∈ (conf unit zero v order a).procs, p = .done) ∧
    ∃ log, Interleaving jobs log ∧ tr = results jobs order ++ [.result (total log v)] := by
  obtain ⟨h1, h2⟩ := hf
  have he : a.main.ended = true := by rw [h1]; rfl
  refine ⟨fun p hp => ?_, a.log, ended_interleaving hI he, hI.ended he⟩
  simp only [conf, List.mem_cons, List.mem_map] at hp
  rcases hp with rfl | ⟨t, ht, rfl⟩
  · rw [h1]; rfl
  · simp only [Task.proc, h2 t ht]

theorem acc_conf {jobs : List (Job V)} : ∀ (n : Nat) (a : St V) (tr : List (Event V)), Inv v jobs order a tr →
    order.Perm (List.range jobs.length) → a.weight (waitsOf jobs order) ≤ n →
    Acc (fun t s : Config V (Event V) => ∃ e, Step s e t) (conf unit zero v order a) := by
  intro n
  induction n with
  | zero =>
    intro a tr hI _ hw
    refine Acc.intro _ fun t ⟨e, h⟩ => ?_
    obtain ⟨a', _, hm⟩ := step_move hI h
    exact absurd (move_weight hm) (by omega)
  | succ n ih =>
    intro a tr hI ho hw
    refine Acc.intro _ fun t ⟨e, h⟩ => ?_
    obtain ⟨a', rfl, hm⟩ := step_move hI h
    exact ih a' _ (inv_move ho hI hm) ho (by have := move_weight hm; omega)

end

theorem perm_filters (n : Nat) : ∀ log : List (Nat × List (V → V)), (∀ e ∈ log, e.1 < n) →
    log.Perm ((List.range n).flatMap fun i => log.filter fun e => e.1 == i) := by
  induction n with
  | zero =>
    intro log h
    cases log with
    | nil => simp
    | cons e log => exact absurd (h e (by simp)) (by omega)
  | succ n ih =>
    intro log h
    rw [List.range_succ, List.flatMap_append]
    have hp := List.filter_append_perm (fun e : Nat × List (V → V) => decide (e.1 < n)) log
    refine hp.symm.trans (List.Perm.append ?_ ?_)
    · refine (ih _ (fun e he => by simpa using (List.mem_filter.1 he).2)).trans (List.Perm.of_eq ?_)
      simp only [List.flatMap]
      congr 1
      refine List.map_congr_left fun i hi => ?_
      rw [List.filter_filter]
      refine List.filter_congr fun e _ => ?_
      have : i < n := by simpa using hi
      by_cases hei : e.1 = i
      · simp [hei, this]
      · simp [hei]
    · refine List.Perm.of_eq ?_
      simp only [List.flatMap_cons, List.flatMap_nil, List.append_nil]
      refine List.filter_congr fun e he => ?_
      have := h e he
      by_cases hen : e.1 = n
      · simp [hen]
      · have : e.1 < n := by omega
        simp [hen, this]

/-- All critical sections, in the order of the jobs. -/
def allSections (jobs : List (Job V)) : List (List (V → V)) := jobs.flatMap Job.sections

theorem interleaving_perm {jobs : List (Job V)} {log : List (Nat × List (V → V))} (h : Interleaving jobs log) :
    (log.map Prod.snd).Perm (allSections jobs) := by
  refine ((perm_filters jobs.length log h.1).map Prod.snd).trans (List.Perm.of_eq ?_)
  rw [List.map_flatMap]
  simp only [allSections, List.flatMap]
  congr 1
  refine List.ext_getElem? fun i => ?_
  by_cases hi : i < jobs.length
  · simp only [List.getElem?_map, List.getElem?_range hi, Option.map_some, List.getElem?_eq_getElem hi]
    rw [h.2 i _ (List.getElem?_eq_getElem hi)]
  · rw [List.getElem?_eq_none (by simpa using hi), List.getElem?_eq_none (by simpa using hi)]

theorem total_eq (log : List (Nat × List (V → V))) (v : V) :
    total log v = (log.map Prod.snd).flatten.foldl (fun x g => g x) v := by
  induction log generalizing v with
  | nil => rfl
  | cons e log ih =>
    simp only [total, List.foldl_cons, List.map_cons, List.flatten_cons, List.foldl_append] at ih ⊢
    exact ih _

/-- If the updates commute, every order of the critical sections gives the same value. -/
theorem total_of_commute {jobs : List (Job V)} {log : List (Nat × List (V → V))} (h : Interleaving jobs log)
    (hc : ∀ f ∈ (allSections jobs).flatten, ∀ g ∈ (allSections jobs).flatten, ∀ x, g (f x) = f (g x)) (v : V) :
    total log v = (allSections jobs).flatten.foldl (fun x g => g x) v := by
  rw [total_eq]
  have hp := (interleaving_perm h).flatten
  exact hp.foldl_eq' (fun f hf g hg x => hc f (hp.mem_iff.1 hf) g (hp.mem_iff.1 hg) x) v

end ForkJoin

open ForkJoin

variable {V : Type}

/-- C153: in a program whose main goroutine makes a Mutex, spawns threads and gokio tasks that work in critical sections of the
mutex, waits for all of them in any order and then reads the value, nothing panics; every Await gives the result of its task;
and the value read is that left by the critical sections of all tasks, each executed exactly once and as a whole, those of the
same task in their order. -/
theorem C153_fork_join (unit zero v : V) (jobs : List (Job V)) (order : List Nat) (ho : order.Perm (List.range jobs.length))
    {tr : List (Event V)} {s : Config V (Event V)} (h : Run (program unit zero v jobs order) tr s) :
    s.crashed = false ∧
    (tr <+: results jobs order ∨ ∃ log, Interleaving jobs log ∧ tr = results jobs order ++ [.result (total log v)]) := by
  obtain ⟨a, rfl, hI⟩ := run_inv ho h
  refine ⟨rfl, ?_⟩
  by_cases he : a.main.ended = true
  · exact .inr ⟨a.log, ended_interleaving hI he, hI.ended he⟩
  · exact .inl ⟨_, hI.told (by simpa using he)⟩

/-- C153: it does not get stuck: as long as the value has not been read and all goroutines have not ended, some goroutine can go
on. -/
theorem C153_no_deadlock (unit zero v : V) (jobs : List (Job V)) (order : List Nat) (ho : order.Perm (List.range jobs.length))
    {tr : List (Event V)} {s : Config V (Event V)} (h : Run (program unit zero v jobs order) tr s) :
    (∃ e t, Step s e t) ∨
    ((∀ p ∈ s.procs, p = .done) ∧ ∃ log, Interleaving jobs log ∧ tr = results jobs order ++ [.result (total log v)]) := by
  obtain ⟨a, rfl, hI⟩ := run_inv ho h
  by_cases hf : a.finished
  · exact .inr (ended_of_finished hI hf)
  · exact .inl (progress hI hf)

/-- C153: under every schedule it comes to an end. -/
theorem C153_terminates (unit zero v : V) (jobs : List (Job V)) (order : List Nat) (ho : order.Perm (List.range jobs.length)) :
    Acc (fun t s : Config V (Event V) => ∃ e, Step s e t) (program unit zero v jobs order) := by
  rw [program_conf]
  exact acc_conf _ _ _ (initial_inv v ho) ho (Nat.le_refl _)

/-- C153: when the updates commute (a counter, say), the value read is that of executing them one after the other. -/
theorem C153_counter (unit zero v : V) (jobs : List (Job V)) (order : List Nat) (ho : order.Perm (List.range jobs.length))
    (hc : ∀ f ∈ (allSections jobs).flatten, ∀ g ∈ (allSections jobs).flatten, ∀ x, g (f x) = f (g x))
    {tr : List (Event V)} {s : Config V (Event V)} (h : Run (program unit zero v jobs order) tr s) :
    tr <+: results jobs order ++ [.result ((allSections jobs).flatten.foldl (fun x g => g x) v)] := by
  rcases (C153_fork_join unit zero v jobs order ho h).2 with h1 | ⟨log, hi, rfl⟩
  · exact h1.trans (List.prefix_append _ _)
  · rw [total_of_commute hi hc]
    exact List.prefix_refl _

/-- C153: so every execution can be carried on to its end, where the value has been read and all goroutines have ended. -/
theorem C153_completes (unit zero v : V) (jobs : List (Job V)) (order : List Nat) (ho : order.Perm (List.range jobs.length))
    {tr : List (Event V)} {s : Config V (Event V)} (h : Run (program unit zero v jobs order) tr s) :
    ∃ tr' s', Run (program unit zero v jobs order) (tr ++ tr') s' ∧ (∀ p ∈ s'.procs, p = .done) ∧
      ∃ log, Interleaving jobs log ∧ tr ++ tr' = results jobs order ++ [.result (total log v)] := by
  have hacc : Acc (fun t s : Config V (Event V) => ∃ e, Step s e t) s := by
    obtain ⟨a, rfl, hI⟩ := run_inv ho h
    exact acc_conf _ _ _ hI ho (Nat.le_refl _)
  induction hacc generalizing tr with
  | intro s _ ih =>
    rcases C153_no_deadlock unit zero v jobs order ho h with ⟨e, t, ht⟩ | ⟨h1, h2⟩
    · obtain ⟨tr', s', h3, h4, h5⟩ := ih t ⟨e, ht⟩ (.step h ht)
      exact ⟨e.toList ++ tr', s', by rw [← List.append_assoc]; exact h3, h4, by rw [← List.append_assoc]; exact h5⟩
    · exact ⟨[], s, by rw [List.append_nil]; exact h, h1, by rw [List.append_nil]; exact h2⟩

/-- A thread that adds 3 and then 4, a task that adds 5 and returns 9, waited for in the other order: main gets 9 and then
reads 12. -/
def counterJobs : List (Job Int) := [⟨none, [[(· + 3)], [(· + 4)]]⟩, ⟨some 9, [[(· + 5)]]⟩]
example (tr : List (Event Int)) (s : Config Int (Event Int)) (h : Run (program 0 0 0 counterJobs [1, 0]) tr s) :
    tr <+: [.awaited 1 9, .result 12] :=
  C153_counter 0 0 0 counterJobs [1, 0] (by decide) (by
    simp only [counterJobs, allSections, List.flatMap_cons, List.flatMap_nil, List.append_nil, List.cons_append, List.nil_append,
      List.flatten_cons, List.flatten_nil, List.mem_cons, List.not_mem_nil, or_false]
    rintro f (rfl | rfl | rfl) g (rfl | rfl | rfl) x <;> dsimp only <;> omega) h
/-- Such executions exist. -/
example : ∃ tr s, Run (program (0 : Int) 0 0 counterJobs [1, 0]) tr s ∧ (∀ p ∈ s.procs, p = .done) := by
  obtain ⟨tr, s, h, h', _⟩ := C153_completes (0 : Int) 0 0 counterJobs [1, 0] (by decide) (.nil _)
  exact ⟨_, s, h, h'⟩
/-- Updates that do not commute, on lists: the two sections of the thread keep their order. -/
example : Interleaving [⟨none, [[(1 :: ·)], [(2 :: ·)]]⟩, ⟨some [], [[(3 :: ·)]]⟩]
    ([(0, [(1 :: ·)]), (1, [(3 :: ·)]), (0, [(2 :: ·)])] : List (Nat × List (List Nat → List Nat))) := by
  refine ⟨by simp, fun i j h => ?_⟩
  rcases i with _ | _ | i
  · cases h; rfl
  · cases h; rfl
  · simp at h

end Gost
