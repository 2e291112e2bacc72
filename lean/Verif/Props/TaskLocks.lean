import Verif.Props.TaskTree
import Mathlib.Logic.Hydra
/-
Property C164: gokio tasks that share Mutexes.
-/
namespace Gost
open Conc
namespace TaskLocks
variable {V : Type}

/-! ### Programs -/

/-- The body of a task: return a value; spawn a task with the given body, whose future is put at the end of the futures held;
await the `i`-th of the futures held, which gives it up; Lock or Unlock a Mutex (they go by numbers); read or write the value of a
Mutex through the pointer that Lock returned. -/
inductive Code (V : Type) where
  | ret (v : V)
  | spawn (child k : Code V)
  | await (i : Nat) (k : V → Code V)
  | lock (m : Nat) (k : Code V)
  | unlock (m : Nat) (k : Code V)
  | get (m : Nat) (k : V → Code V)
  | put (m : Nat) (v : V) (k : Code V)

/-- The Mutexes of the program. -/
def mutex (m : Nat) : Mutex := Mutex.new m m

/-- The body as a Go function; `p` are the pointers obtained from the Mutexes (those of Mutexes that are not locked are not used),
`hs` the futures held, `k` is what becomes of the result.  An Await of a future that the task does not hold cannot be written
(`Code.Ok`). -/
def Code.proc (zero : V) : Code V → (Nat → Nat) → List Gokio.Future → (V → Proc V V) → Proc V V
  | .ret v, _, _, k => k v
  | .spawn child r, p, hs, k => Gokio.spawn (fun ret => child.proc zero id [] ret) fun h => r.proc zero p (hs ++ [h]) k
  | .await i r, p, hs, k => match hs[i]? with
    | some h => Gokio.await zero h fun v => (r v).proc zero p (hs.eraseIdx i) k
    | none => .done
  | .lock m r, p, hs, k => (mutex m).lock_ fun ptr => r.proc zero (upd p m ptr) hs k
  | .unlock m r, p, hs, k => (mutex m).unlock (r.proc zero p hs k)
  | .get m r, p, hs, k => .load (p m) fun v => (r v).proc zero p hs k
  | .put m v r, p, hs, k => .store (p m) v (r.proc zero p hs k)

/-- main executes the body and shows its result; the Mutexes have the values `f`. -/
def program (zero : V) (f : Nat → V) (code : Code V) : Config V V := start f (code.proc zero id [] fun v => .emit v .done)

/-! ### Specification: the discipline -/

/-- What the body keeps to.  Mutexes have ranks and tasks have levels: `base` is the level of the task, `held` are the Mutexes it has
locked, `fs` the levels of the tasks whose futures it holds.  A task locks Mutexes in the order of their ranks, none below its own
level; it awaits tasks whose level is not below its own and above the ranks of the Mutexes it has locked.  It unlocks and uses
Mutexes it has locked only, and has unlocked all when it returns.  With `all`, it awaits every future before it returns. -/
def Code.Ok (rank : Nat → Nat) (all : Bool) (base : Nat) : Code V → List Nat → List Nat → Prop
  | .ret _, held, fs => held = [] ∧ (all = true → fs = [])
  | .spawn child r, held, fs => ∃ l, child.Ok rank all l [] [] ∧ r.Ok rank all base held (fs ++ [l])
  | .await i r, held, fs => ∃ l, fs[i]? = some l ∧ base ≤ l ∧ (∀ m ∈ held, rank m < l) ∧ ∀ v, (r v).Ok rank all base held (fs.eraseIdx i)
  | .lock m r, held, fs => base ≤ rank m ∧ (∀ m' ∈ held, rank m' < rank m) ∧ r.Ok rank all base (m :: held) fs
  | .unlock m r, held, fs => m ∈ held ∧ r.Ok rank all base (held.erase m) fs
  | .get m r, held, fs => m ∈ held ∧ ∀ v, (r v).Ok rank all base held fs
  | .put m _ r, held, fs => m ∈ held ∧ r.Ok rank all base held fs

/-! ### Tasks and configurations -/

inductive TaskSt (V : Type) where
  | run (code : Code V) (locks : List Nat) (env : List (Nat × Nat))
  | going (l : Nat) (child k : Code V) (c : Nat) (locks : List Nat) (env : List (Nat × Nat))
  | parked (v : V)
  | closing
  | over

/-- A goroutine: its channel (main has none), its level, and where it is. -/
structure Task (V : Type) where
  chan : Option Nat
  level : Nat
  st : TaskSt V

/-- What becomes of the result. -/
def finish : Option Nat → V → Proc V V
  | none, v => .emit v .done
  | some c, v => .send c v (.close c .done)

def futures (env : List (Nat × Nat)) : List Gokio.Future := env.map fun e => ⟨e.1⟩

def Task.proc (zero : V) (t : Task V) : Proc V V :=
  match t.st with
  | .run code _ env => code.proc zero id (futures env) (finish t.chan)
  | .going _ child r c _ env =>
    .go (child.proc zero id [] (finish (some c))) (r.proc zero id (futures env ++ [⟨c⟩]) (finish t.chan))
  | .parked v => match t.chan with
    | some c => .parked c v (.close c .done)
    | none => .done
  | .closing => match t.chan with
    | some c => .close c .done
    | none => .done
  | .over => .done

/-- The futures a task holds, with the levels of their tasks. -/
def TaskSt.env : TaskSt V → List (Nat × Nat)
  | .run _ _ env => env
  | .going _ _ _ _ _ env => env
  | _ => []

/-- The Mutexes a task has locked. -/
def TaskSt.locks : TaskSt V → List Nat
  | .run _ l _ => l
  | .going _ _ _ _ l _ => l
  | _ => []

def TaskSt.sent : TaskSt V → Bool
  | .closing => true
  | .over => true
  | _ => false

/-- What is known about a single task. -/
def Task.Ok (rank : Nat → Nat) (all : Bool) (t : Task V) : Prop :=
  match t.st with
  | .run code locks env => code.Ok rank all t.level locks (env.map Prod.snd)
  | .going l child r _ locks env => child.Ok rank all l [] [] ∧ r.Ok rank all t.level locks (env.map Prod.snd ++ [l])
  | .over => True
  | _ => t.chan.isSome = true

/-- The channel made for a task that has not been started. -/
def TaskSt.fresh : TaskSt V → Option Nat
  | .going _ _ _ c _ _ => some c
  | _ => none

/-- The tasks and the Mutexes agree. -/
structure Locked (ts : List (Task V)) (locks : Nat → Bool) : Prop where
  iff : ∀ m, locks m = true ↔ ∃ (i : Nat) (t : Task V), ts[i]? = some t ∧ m ∈ t.st.locks
  once : ∀ (i j : Nat) t u m, ts[i]? = some t → ts[j]? = some u → m ∈ t.st.locks → m ∈ u.st.locks → i = j
  nodup : ∀ (i : Nat) t, ts[i]? = some t → t.st.locks.Nodup

structure Inv (rank : Nat → Nat) (zero : V) (all : Bool) (ts : List (Task V)) (s : Config V V) (tr : List V) : Prop where
  procs : s.procs = ts.map (Task.proc zero)
  alive : s.crashed = false
  ok : ∀ (i : Nat) t, ts[i]? = some t → t.Ok rank all
  chans : ∀ (c : Nat) (ch : Chan V), s.chans[c]? = some ch → ch.cap = 0 ∧ ch.buf = [] ∧
    (ch.closed = true → ∃ (i : Nat) (t : Task V), ts[i]? = some t ∧ t.chan = some c ∧ t.st = .over)
  inRange : ∀ (i : Nat) t c, ts[i]? = some t → t.chan = some c ∨ t.st.fresh = some c → c < s.chans.length
  unique : ∀ (i j : Nat) t u c, ts[i]? = some t → ts[j]? = some u → t.chan = some c → u.chan = some c → i = j
  freshChan : ∀ (i j : Nat) t u c, ts[i]? = some t → ts[j]? = some u → t.st.fresh = some c → u.chan ≠ some c
  freshOnce : ∀ (i j : Nat) t u c, ts[i]? = some t → ts[j]? = some u → t.st.fresh = some c → u.st.fresh = some c → i = j
  nodup : ∀ (i : Nat) t, ts[i]? = some t → (t.st.env.map Prod.fst).Nodup
  held : ∀ (i j : Nat) t u c, ts[i]? = some t → ts[j]? = some u → c ∈ t.st.env.map Prod.fst → c ∈ u.st.env.map Prod.fst → i = j
  owner : ∀ (i : Nat) t e, ts[i]? = some t → e ∈ t.st.env →
    ∃ (j : Nat) (u : Task V), i < j ∧ ts[j]? = some u ∧ u.chan = some e.1 ∧ u.level = e.2 ∧ u.st.sent = false
  holder : all = true → ∀ (j : Nat) u c, ts[j]? = some u → u.chan = some c → u.st.sent = false →
    ∃ (i : Nat) (t : Task V), ts[i]? = some t ∧ c ∈ t.st.env.map Prod.fst
  main : ∃ t, ts[0]? = some t ∧ t.chan = none ∧ tr.length = if t.st.sent then 1 else 0
  others : ∀ (i : Nat) t, ts[i]? = some t → t.chan = none → i = 0
  locked : Locked ts s.locks

/-! ### What a goroutine executes -/

inductive Who (zero : V) (t : Task V) : Proc V V → Prop
  | done : Who zero t .done
  | emit {v l env} (h : t.st = .run (.ret v) l env) (hc : t.chan = none) : Who zero t (.emit v .done)
  | send {v l env c} (h : t.st = .run (.ret v) l env) (hc : t.chan = some c) : Who zero t (.send c v (.close c .done))
  | make {child r l env} (h : t.st = .run (.spawn child r) l env) : Who zero t
      (.make 0 fun c => .go (child.proc zero id [] (finish (some c))) (r.proc zero id (futures env ++ [⟨c⟩]) (finish t.chan)))
  | recv {i r l env} {e : Nat × Nat} (h : t.st = .run (.await i r) l env) (he : env[i]? = some e) : Who zero t
      (.recv e.1 fun x => (r (x.getD zero)).proc zero id (futures (env.eraseIdx i)) (finish t.chan))
  | go {n child r c l env} (h : t.st = .going n child r c l env) : Who zero t
      (.go (child.proc zero id [] (finish (some c))) (r.proc zero id (futures env ++ [⟨c⟩]) (finish t.chan)))
  | parked {v c} (h : t.st = .parked v) (hc : t.chan = some c) : Who zero t (.parked c v (.close c .done))
  | close {c} (h : t.st = .closing) (hc : t.chan = some c) : Who zero t (.close c .done)
  | lock {m r l env} (h : t.st = .run (.lock m r) l env) : Who zero t (.lock m (r.proc zero id (futures env) (finish t.chan)))
  | unlock {m r l env} (h : t.st = .run (.unlock m r) l env) : Who zero t (.unlock m (r.proc zero id (futures env) (finish t.chan)))
  | load {m r l env} (h : t.st = .run (.get m r) l env) : Who zero t
      (.load m fun v => (r v).proc zero id (futures env) (finish t.chan))
  | store {m v r l env} (h : t.st = .run (.put m v r) l env) : Who zero t (.store m v (r.proc zero id (futures env) (finish t.chan)))

theorem upd_id (m : Nat) : upd id m m = id := by
  funext x
  simp only [upd, id]
  split
  · rename_i h; exact h.symm
  · rfl

theorem lock_proc (zero : V) (m : Nat) (r : Code V) (hs : List Gokio.Future) (k : V → Proc V V) :
    (Code.lock m r).proc zero id hs k = .lock m (r.proc zero id hs k) := by
  simp only [Code.proc, Mutex.lock_, mutex, Mutex.new, upd_id]

theorem who (zero : V) (t : Task V) : Who zero t (t.proc zero) := by
  unfold Task.proc
  cases h : t.st with
  | run code l env =>
    cases code with
    | ret v =>
      cases hc : t.chan with
      | none => exact .emit h hc
      | some c => exact .send h hc
    | spawn child r => exact .make h
    | await i r =>
      simp only [Code.proc]
      cases he : env[i]? with
      | none => simp only [futures, List.getElem?_map, he, Option.map_none]; exact .done
      | some e =>
        simp only [futures, List.getElem?_map, he, Option.map_some, Gokio.await]
        rw [TaskTree.eraseIdx_map]
        exact .recv h he
    | lock m r => simp only [lock_proc]; exact .lock h
    | unlock m r => exact .unlock h
    | get m r => exact .load h
    | put m v r => exact .store h
  | going n child r c l env => exact .go h
  | parked v =>
    cases hc : t.chan with
    | none => exact .done
    | some c => exact .parked h hc
  | closing =>
    cases hc : t.chan with
    | none => exact .done
    | some c => exact .close h hc
  | over => exact .done

theorem get_proc {rank : Nat → Nat} {zero : V} {all : Bool} {ts : List (Task V)} {s : Config V V} {tr : List V}
    (hI : Inv rank zero all ts s tr) {i : Nat} {p : Proc V V} (h : s.procs[i]? = some p) :
    ∃ t, ts[i]? = some t ∧ Who zero t p := by
  rw [hI.procs, List.getElem?_map, Option.map_eq_some_iff] at h
  obtain ⟨t, ht, rfl⟩ := h
  exact ⟨t, ht, who zero t⟩

theorem get_set {ts : List (Task V)} {i k : Nat} {t' u : Task V} (hk : (ts.set i t')[k]? = some u) :
    (k = i ∧ u = t') ∨ (k ≠ i ∧ ts[k]? = some u) := by
  rw [List.getElem?_set] at hk
  by_cases h : i = k
  · subst h
    rw [if_pos rfl] at hk
    split at hk
    · exact .inl ⟨rfl, by simpa using hk.symm⟩
    · cases hk
  · rw [if_neg h] at hk
    exact .inr ⟨fun e => h e.symm, hk⟩

theorem set_get {ts : List (Task V)} {i : Nat} {t t' : Task V} (h : ts[i]? = some t) : (ts.set i t')[i]? = some t' := by
  rw [List.getElem?_set, if_pos rfl, if_pos (List.getElem?_eq_some_iff.1 h).1]

theorem set_ne {ts : List (Task V)} {i k : Nat} {t' u : Task V} (h : ts[k]? = some u) (hne : k ≠ i) :
    (ts.set i t')[k]? = some u := by
  rw [List.getElem?_set, if_neg (fun e => hne e.symm), h]

/-! ### Steps keep the invariant -/

section
variable {rank : Nat → Nat} {zero : V} {all : Bool} {ts ts' : List (Task V)} {s s' : Config V V} {tr tr' : List V}

/-- What a step without `go` must satisfy: channels and results of the tasks stay, futures are only given up, at most one channel
is made. -/
theorem Inv.moved (hI : Inv rank zero all ts s tr) (i : Nat)
    (hstat : ∀ k : Nat, (ts'[k]?).map (fun t => (t.chan, t.level)) = (ts[k]?).map (fun t => (t.chan, t.level)))
    (henv : ∀ (k : Nat) u u', ts[k]? = some u → ts'[k]? = some u' → u'.st.env.Sublist u.st.env)
    (hfresh : ∀ (k : Nat) u' c, ts'[k]? = some u' → u'.st.fresh = some c →
      (∃ u, ts[k]? = some u ∧ u.st.fresh = some c) ∨ (c = s.chans.length ∧ k = i ∧ s.chans.length < s'.chans.length))
    (hlen : s.chans.length ≤ s'.chans.length)
    (procs : s'.procs = ts'.map (Task.proc zero)) (alive : s'.crashed = false)
    (ok : ∀ (k : Nat) u', ts'[k]? = some u' → u'.Ok rank all)
    (chans : ∀ (c : Nat) ch, s'.chans[c]? = some ch → ch.cap = 0 ∧ ch.buf = [] ∧
      (ch.closed = true → ∃ (i : Nat) (t : Task V), ts'[i]? = some t ∧ t.chan = some c ∧ t.st = .over))
    (unsent : ∀ (k : Nat) u' e, ts'[k]? = some u' → e ∈ u'.st.env → ∀ (j : Nat) u u2, ts[j]? = some u → ts'[j]? = some u2 →
      u.chan = some e.1 → u.st.sent = false → u2.st.sent = false)
    (holder : all = true → ∀ (j : Nat) u c, ts'[j]? = some u → u.chan = some c → u.st.sent = false →
      ∃ (i : Nat) (t : Task V), ts'[i]? = some t ∧ c ∈ t.st.env.map Prod.fst)
    (main : ∀ t t', ts[0]? = some t → ts'[0]? = some t' → t.chan = none → tr.length = (if t.st.sent then 1 else 0) →
      tr'.length = if t'.st.sent then 1 else 0)
    (locked : Locked ts' s'.locks) : Inv rank zero all ts' s' tr' := by
  have old : ∀ {k : Nat} {u' : Task V}, ts'[k]? = some u' → ∃ u, ts[k]? = some u ∧ u'.chan = u.chan ∧ u'.level = u.level := by
    intro k u' h
    have := hstat k
    rw [h] at this
    cases hu : ts[k]? with
    | none => rw [hu] at this; cases this
    | some u =>
      rw [hu] at this
      simp only [Option.map_some, Option.some.injEq, Prod.mk.injEq] at this
      exact ⟨u, rfl, this⟩
  have new : ∀ {k : Nat} {u : Task V}, ts[k]? = some u → ∃ u', ts'[k]? = some u' ∧ u'.chan = u.chan ∧ u'.level = u.level := by
    intro k u h
    have := hstat k
    rw [h] at this
    cases hu : ts'[k]? with
    | none => rw [hu] at this; cases this
    | some u =>
      rw [hu] at this
      simp only [Option.map_some, Option.some.injEq, Prod.mk.injEq] at this
      exact ⟨u, rfl, this⟩
  have sub : ∀ {k : Nat} {u' : Task V} {c : Nat}, ts'[k]? = some u' → c ∈ u'.st.env.map Prod.fst →
      ∃ u, ts[k]? = some u ∧ c ∈ u.st.env.map Prod.fst := by
    intro k u' c h hc
    obtain ⟨u, hu, _⟩ := old h
    exact ⟨u, hu, ((henv k u u' hu h).map _).subset hc⟩
  refine ⟨procs, alive, ok, chans, ?_, ?_, ?_, ?_, ?_, ?_, ?_, holder, ?_, ?_, locked⟩
  · intro k u' c hk h
    rcases h with h | h
    · obtain ⟨u, hu, h1, _⟩ := old hk
      exact Nat.lt_of_lt_of_le (hI.inRange k u c hu (.inl (h1 ▸ h))) hlen
    · rcases hfresh k u' c hk h with ⟨u, hu, h1⟩ | ⟨rfl, _, h1⟩
      · exact Nat.lt_of_lt_of_le (hI.inRange k u c hu (.inr h1)) hlen
      · exact h1
  · intro a b t u c ha hb hc hd
    obtain ⟨t0, h1, h2, _⟩ := old ha
    obtain ⟨u0, h3, h4, _⟩ := old hb
    exact hI.unique a b t0 u0 c h1 h3 (h2 ▸ hc) (h4 ▸ hd)
  · intro a b t u c ha hb hc hd
    obtain ⟨u0, h3, h4, _⟩ := old hb
    rcases hfresh a t c ha hc with ⟨t0, h1, h2⟩ | ⟨rfl, _, _⟩
    · exact hI.freshChan a b t0 u0 c h1 h3 h2 (h4 ▸ hd)
    · exact absurd (hI.inRange b u0 _ h3 (.inl (h4 ▸ hd))) (by omega)
  · intro a b t u c ha hb hc hd
    rcases hfresh a t c ha hc with ⟨t0, h1, h2⟩ | ⟨e1, h1, _⟩ <;> rcases hfresh b u c hb hd with ⟨u0, h3, h4⟩ | ⟨e2, h3, _⟩
    · exact hI.freshOnce a b t0 u0 c h1 h3 h2 h4
    · exact absurd (hI.inRange a t0 c h1 (.inr h2)) (by omega)
    · exact absurd (hI.inRange b u0 c h3 (.inr h4)) (by omega)
    · rw [h1, h3]
  · intro k u' hk
    obtain ⟨u, hu, _⟩ := old hk
    exact ((henv k u u' hu hk).map _).nodup (hI.nodup k u hu)
  · intro a b t u c ha hb hc hd
    obtain ⟨t0, h1, h2⟩ := sub ha hc
    obtain ⟨u0, h3, h4⟩ := sub hb hd
    exact hI.held a b t0 u0 c h1 h3 h2 h4
  · intro k u' e hk he
    obtain ⟨u, hu, _⟩ := old hk
    obtain ⟨j, w, h1, h2, h3, h4, h5⟩ := hI.owner k u e hu ((henv k u u' hu hk).subset he)
    obtain ⟨w', h6, h7, h8⟩ := new h2
    exact ⟨j, w', h1, h6, h7.trans h3, h8.trans h4, unsent k u' e hk he j w w' h2 h6 h3 h5⟩
  · obtain ⟨t, h1, h2, h4⟩ := hI.main
    obtain ⟨t', h5, h6, _⟩ := new h1
    exact ⟨t', h5, h6.trans h2, main t t' h1 h5 h2 h4⟩
  · intro k u' hk hc
    obtain ⟨u, hu, h1, _⟩ := old hk
    exact hI.others k u hu (h1 ▸ hc)

theorem Locked.congr {locks : Nat → Bool} (h : Locked ts locks)
    (h' : ∀ (m k : Nat), (∃ t, ts'[k]? = some t ∧ m ∈ t.st.locks) ↔ ∃ t, ts[k]? = some t ∧ m ∈ t.st.locks)
    (nd : ∀ (k : Nat) t, ts'[k]? = some t → t.st.locks.Nodup) : Locked ts' locks := by
  refine ⟨fun m => ?_, fun i j t u m hi hj ht hu => ?_, nd⟩
  · rw [h.iff m]
    exact ⟨fun ⟨k, hk⟩ => ⟨k, (h' m k).2 hk⟩, fun ⟨k, hk⟩ => ⟨k, (h' m k).1 hk⟩⟩
  · obtain ⟨t0, h1, h2⟩ := (h' m i).1 ⟨t, hi, ht⟩
    obtain ⟨u0, h3, h4⟩ := (h' m j).1 ⟨u, hj, hu⟩
    exact h.once i j t0 u0 m h1 h3 h2 h4

theorem Locked.set {locks : Nat → Bool} (h : Locked ts locks) {i : Nat} {t t' : Task V} (ht : ts[i]? = some t)
    (hl : t'.st.locks = t.st.locks) : Locked (ts.set i t') locks := by
  refine h.congr (fun m k => ?_) fun k u hk => ?_
  · by_cases hki : k = i
    · subst hki
      rw [set_get ht, ht]
      constructor <;> rintro ⟨u, hu, hm⟩ <;> cases hu
      · exact ⟨_, rfl, hl ▸ hm⟩
      · exact ⟨_, rfl, hl ▸ hm⟩
    · rw [List.getElem?_set, if_neg fun e => hki e.symm]
  · rcases get_set hk with ⟨rfl, rfl⟩ | ⟨_, hk⟩
    · rw [hl]; exact h.nodup _ t ht
    · exact h.nodup k u hk

theorem Locked.append {locks : Nat → Bool} (h : Locked ts locks) {t : Task V} (hl : t.st.locks = []) : Locked (ts ++ [t]) locks := by
  have get : ∀ (k : Nat) u, (ts ++ [t])[k]? = some u → ts[k]? = some u ∨ u = t := by
    intro k u hk
    by_cases hlt : k < ts.length
    · rw [List.getElem?_append_left hlt] at hk; exact .inl hk
    · rw [List.getElem?_append_right (Nat.le_of_not_lt hlt)] at hk
      exact .inr (List.mem_singleton.1 (List.mem_of_getElem? hk))
  refine h.congr (fun m k => ⟨?_, ?_⟩) fun k u hk => ?_
  · rintro ⟨u, hk, hm⟩
    rcases get k u hk with h1 | rfl
    · exact ⟨u, h1, hm⟩
    · rw [hl] at hm; cases hm
  · rintro ⟨u, hk, hm⟩
    exact ⟨u, by rw [List.getElem?_append_left (List.getElem?_eq_some_iff.1 hk).1]; exact hk, hm⟩
  · rcases get k u hk with h1 | rfl
    · exact h.nodup k u h1
    · rw [hl]; exact List.nodup_nil

/-- Lock. -/
theorem Locked.lock {locks : Nat → Bool} (h : Locked ts locks) {i m : Nat} {t t' : Task V} (ht : ts[i]? = some t)
    (hm : locks m = false) (hl : t'.st.locks = m :: t.st.locks) : Locked (ts.set i t') (upd locks m true) := by
  have free : ∀ (k : Nat) u, ts[k]? = some u → m ∉ u.st.locks := by
    intro k u hk hu
    rw [(h.iff m).2 ⟨k, u, hk, hu⟩] at hm
    cases hm
  refine ⟨fun x => ?_, fun a b u w x ha hb hu hw => ?_, fun k u hk => ?_⟩
  · by_cases hx : x = m
    · subst hx
      simp only [upd, if_true, true_iff]
      exact ⟨i, t', set_get ht, by rw [hl]; exact List.mem_cons_self⟩
    · simp only [upd, if_neg hx, h.iff x]
      constructor
      · rintro ⟨k, u, hk, hu⟩
        by_cases hki : k = i
        · subst hki
          rw [ht] at hk; cases hk
          exact ⟨k, t', set_get ht, by rw [hl]; exact List.mem_cons_of_mem _ hu⟩
        · exact ⟨k, u, set_ne hk hki, hu⟩
      · rintro ⟨k, u, hk, hu⟩
        rcases get_set hk with ⟨rfl, rfl⟩ | ⟨_, hk⟩
        · rw [hl, List.mem_cons] at hu
          exact ⟨_, t, ht, hu.resolve_left hx⟩
        · exact ⟨k, u, hk, hu⟩
  · rcases get_set ha with ⟨h1, h2⟩ | ⟨_, ha'⟩ <;> rcases get_set hb with ⟨h3, h4⟩ | ⟨_, hb'⟩
    · rw [h1, h3]
    · subst h1 h2
      rw [hl, List.mem_cons] at hu
      rcases hu with rfl | hu
      · exact absurd hw (free b w hb')
      · exact h.once _ b t w x ht hb' hu hw
    · subst h3 h4
      rw [hl, List.mem_cons] at hw
      rcases hw with rfl | hw
      · exact absurd hu (free a u ha')
      · exact h.once a _ u t x ha' ht hu hw
    · exact h.once a b u w x ha' hb' hu hw
  · rcases get_set hk with ⟨rfl, rfl⟩ | ⟨_, hk⟩
    · rw [hl]; exact List.nodup_cons.2 ⟨free _ t ht, h.nodup _ t ht⟩
    · exact h.nodup k u hk

/-- Unlock. -/
theorem Locked.unlock {locks : Nat → Bool} (h : Locked ts locks) {i m : Nat} {t t' : Task V} (ht : ts[i]? = some t)
    (hm : m ∈ t.st.locks) (hl : t'.st.locks = t.st.locks.erase m) : Locked (ts.set i t') (upd locks m false) := by
  have sub : ∀ {x : Nat}, x ∈ t'.st.locks → x ≠ m ∧ x ∈ t.st.locks := by
    intro x hx
    rw [hl] at hx
    exact (h.nodup i t ht).mem_erase_iff.1 hx
  have old : ∀ {k : Nat} {u : Task V} {x : Nat}, (ts.set i t')[k]? = some u → x ∈ u.st.locks →
      ∃ u0, ts[k]? = some u0 ∧ x ∈ u0.st.locks := by
    intro k u x hk hu
    rcases get_set hk with ⟨rfl, rfl⟩ | ⟨_, hk⟩
    · exact ⟨t, ht, (sub hu).2⟩
    · exact ⟨u, hk, hu⟩
  refine ⟨fun x => ?_, fun a b u w x ha hb hu hw => ?_, fun k u hk => ?_⟩
  · by_cases hx : x = m
    · subst hx
      simp only [upd, if_true, Bool.false_eq_true, false_iff]
      rintro ⟨k, u, hk, hu⟩
      rcases get_set hk with ⟨rfl, rfl⟩ | ⟨hne, hk⟩
      · exact (sub hu).1 rfl
      · exact hne (h.once k i u t x hk ht hu hm)
    · simp only [upd, if_neg hx, h.iff x]
      constructor
      · rintro ⟨k, u, hk, hu⟩
        by_cases hki : k = i
        · subst hki
          rw [ht] at hk; cases hk
          exact ⟨k, t', set_get ht, by rw [hl]; exact (List.mem_erase_of_ne hx).2 hu⟩
        · exact ⟨k, u, set_ne hk hki, hu⟩
      · rintro ⟨k, u, hk, hu⟩
        obtain ⟨u0, h1, h2⟩ := old hk hu
        exact ⟨k, u0, h1, h2⟩
  · obtain ⟨u0, h1, h2⟩ := old ha hu
    obtain ⟨w0, h3, h4⟩ := old hb hw
    exact h.once a b u0 w0 x h1 h3 h2 h4
  · rcases get_set hk with ⟨rfl, rfl⟩ | ⟨_, hk⟩
    · rw [hl]; exact (h.nodup _ t ht).erase m
    · exact h.nodup k u hk

theorem stat_set {i : Nat} {t : Task V} {st : TaskSt V} (ht : ts[i]? = some t) (k : Nat) :
    ((ts.set i ⟨t.chan, t.level, st⟩)[k]?).map (fun t => (t.chan, t.level)) = (ts[k]?).map (fun t => (t.chan, t.level)) := by
  by_cases h : k = i
  · subst h
    rw [set_get ht, ht]
    rfl
  · rw [List.getElem?_set, if_neg (fun e => h e.symm)]

/-- A single task moves, without making a channel; the events are given. -/
theorem Inv.one (hI : Inv rank zero all ts s tr) {i : Nat} {t : Task V} {st : TaskSt V} (ht : ts[i]? = some t)
    (henv : st.env.Sublist t.st.env) (hall : all = true → t.st.env = st.env)
    (hfresh : ∀ c, st.fresh = some c → c = s.chans.length ∧ s.chans.length < s'.chans.length)
    (hlen : s.chans.length ≤ s'.chans.length)
    (procs : s'.procs = s.procs.set i ((Task.mk t.chan t.level st).proc zero)) (alive : s'.crashed = false)
    (ok : (Task.mk t.chan t.level st).Ok rank all)
    (chans : ∀ (c : Nat) ch, s'.chans[c]? = some ch → ch.cap = 0 ∧ ch.buf = [] ∧
      (ch.closed = true → (∃ ch', s.chans[c]? = some ch' ∧ ch'.closed = true) ∨ (t.chan = some c ∧ st = .over)))
    (hover : t.st ≠ .over) (hsent : t.st.sent = false → st.sent = false ∨ t.chan = none)
    (hsent' : t.st.sent = true → st.sent = true)
    (main : t.chan = none → t.st.sent = false → tr'.length = tr.length + if st.sent then 1 else 0) (hother : t.chan ≠ none → tr' = tr)
    (locked : Locked (ts.set i ⟨t.chan, t.level, st⟩) s'.locks) :
    Inv rank zero all (ts.set i ⟨t.chan, t.level, st⟩) s' tr' := by
  refine hI.moved i (stat_set ht) ?_ ?_ hlen ?_ alive ?_ ?_ ?_ ?_ ?_ locked
  · intro k u u' hk hk'
    rcases get_set hk' with ⟨rfl, rfl⟩ | ⟨_, h⟩
    · rw [ht] at hk; cases hk; exact henv
    · rw [hk] at h; cases h; exact List.Sublist.refl _
  · intro k u' c hk hc
    rcases get_set hk with ⟨rfl, rfl⟩ | ⟨_, h⟩
    · exact .inr ⟨(hfresh c hc).1, rfl, (hfresh c hc).2⟩
    · exact .inl ⟨u', h, hc⟩
  · rw [procs, hI.procs, List.map_set]
  · intro k u' hk
    rcases get_set hk with ⟨rfl, rfl⟩ | ⟨_, h⟩
    · exact ok
    · exact hI.ok k u' h
  · intro c ch hch
    obtain ⟨h1, h2, h3⟩ := chans c ch hch
    refine ⟨h1, h2, fun hcl => ?_⟩
    rcases h3 hcl with ⟨ch', h4, h5⟩ | ⟨h4, h5⟩
    · obtain ⟨k, u, hk, h6, h7⟩ := (hI.chans c ch' h4).2.2 h5
      have hki : k ≠ i := by
        rintro rfl
        rw [ht] at hk
        cases hk
        exact hover h7
      exact ⟨k, u, set_ne hk hki, h6, h7⟩
    · exact ⟨i, _, set_get ht, h4, h5⟩
  · intro k u' e hk he j u u2 hu hu2 hc hs
    rcases get_set hu2 with ⟨rfl, rfl⟩ | ⟨_, h⟩
    · rw [ht] at hu
      cases hu
      rcases hsent hs with h | h
      · exact h
      · rw [h] at hc; cases hc
    · rw [hu] at h; cases h; exact hs
  · intro ha j u c hj hc hs
    have : ∃ u0, ts[j]? = some u0 ∧ u0.chan = some c ∧ u0.st.sent = false := by
      rcases get_set hj with ⟨rfl, rfl⟩ | ⟨_, h⟩
      · refine ⟨t, ht, hc, ?_⟩
        cases h : t.st.sent with
        | false => rfl
        | true => simp only [hsent' h] at hs; cases hs
      · exact ⟨u, h, hc, hs⟩
    obtain ⟨u0, h1, h2, h3⟩ := this
    obtain ⟨k, w, hk, hw⟩ := hI.holder ha j u0 c h1 h2 h3
    by_cases hki : k = i
    · subst hki
      rw [ht] at hk
      cases hk
      exact ⟨k, _, set_get ht, by simp only [← hall ha]; exact hw⟩
    · exact ⟨k, w, set_ne hk hki, hw⟩
  · intro t0 t0' h0 h0' hc htr
    rcases get_set h0' with ⟨rfl, rfl⟩ | ⟨hne, h⟩
    · rw [ht] at h0
      cases h0
      cases hs : t.st.sent with
      | false => rw [main hc hs, htr, hs]; simp
      | true =>
        have hk := hI.ok _ t ht
        unfold Task.Ok at hk
        cases hst : t.st with
        | closing => rw [hst, hc] at hk; cases hk
        | over => exact absurd hst hover
        | _ => rw [hst] at hs; cases hs
    · have : tr' = tr := hother fun hn => hne (hI.others i t ht hn).symm
      rw [h0] at h
      cases h
      rw [this, htr]

/-- A sender and a receiver meet. -/
theorem Inv.meet (hI : Inv rank zero all ts s tr) {i j n : Nat} {t u : Task V} {r : V → Code V} {l : List Nat} {env : List (Nat × Nat)} {e : Nat × Nat} {v : V}
    (ht : ts[i]? = some t) (hu : ts[j]? = some u) (hst : t.st = .run (.await n r) l env) (he : env[n]? = some e)
    (huc : u.chan = some e.1) (hus : (∃ v l env', u.st = .run (.ret v) l env') ∨ ∃ v, u.st = .parked v) :
    Inv rank zero all ((ts.set j ⟨u.chan, u.level, .closing⟩).set i ⟨t.chan, t.level, .run (r v) l (env.eraseIdx n)⟩)
      ((s.to j (.close e.1 .done)).to i ((r v).proc zero id (futures (env.eraseIdx n)) (finish t.chan))) tr := by
  have hsu : u.st.sent = false := by
    rcases hus with ⟨v, l, env', h⟩ | ⟨v, h⟩ <;> rw [h] <;> rfl
  have hst' : t.st.sent = false := by rw [hst]; rfl
  have hte : t.st.env = env := by rw [hst]; rfl
  have hmem : e ∈ env := List.mem_of_getElem? he
  have hij : i ≠ j := by
    rintro rfl
    rw [ht] at hu
    cases hu
    obtain ⟨k, w, h1, h2, h3, _⟩ := hI.owner i t e ht (hte ▸ hmem)
    exact absurd (hI.unique i k t w e.1 ht h2 huc h3) (by omega)
  have hnd : (env.map Prod.fst).Nodup := hte ▸ hI.nodup i t ht
  -- the future is held by nobody any more
  have gone : e.1 ∉ (env.eraseIdx n).map Prod.fst := by
    rw [← TaskTree.eraseIdx_map]
    intro h
    exact TaskTree.not_mem_eraseIdx hnd (by rw [List.getElem?_map, he]; rfl) h
  have hui : (ts.set j ⟨u.chan, u.level, .closing⟩)[i]? = some t := set_ne ht hij
  -- the tasks afterwards
  have get : ∀ {k : Nat} {w : Task V}, ((ts.set j ⟨u.chan, u.level, .closing⟩).set i
      ⟨t.chan, t.level, .run (r v) l (env.eraseIdx n)⟩)[k]? = some w →
      (k = i ∧ w = ⟨t.chan, t.level, .run (r v) l (env.eraseIdx n)⟩) ∨ (k = j ∧ w = ⟨u.chan, u.level, .closing⟩) ∨
      (k ≠ i ∧ k ≠ j ∧ ts[k]? = some w) := by
    intro k w h
    rcases get_set h with h | ⟨h1, h2⟩
    · exact .inl h
    · rcases get_set h2 with h3 | ⟨h3, h4⟩
      · exact .inr (.inl h3)
      · exact .inr (.inr ⟨h1, h3, h4⟩)
  have geti : ((ts.set j ⟨u.chan, u.level, .closing⟩).set i ⟨t.chan, t.level, .run (r v) l (env.eraseIdx n)⟩)[i]? = some _ :=
    set_get hui
  have getk : ∀ {k : Nat} {w : Task V}, ts[k]? = some w → k ≠ i → k ≠ j → ((ts.set j ⟨u.chan, u.level, .closing⟩).set i
      ⟨t.chan, t.level, .run (r v) l (env.eraseIdx n)⟩)[k]? = some w := fun h h1 h2 => set_ne (set_ne h h2) h1
  have hres : u.level = e.2 := by
    obtain ⟨k, w, _, h2, h3, h4, _⟩ := hI.owner i t e ht (hte ▸ hmem)
    have := hI.unique j k u w e.1 hu h2 huc h3
    subst this
    rw [hu] at h2
    cases h2
    exact h4
  have hok := hI.ok i t ht
  unfold Task.Ok at hok
  simp only [hst, Code.Ok, List.getElem?_map, he, Option.map_some] at hok
  obtain ⟨_, _, _, _, hok⟩ := hok
  have hul : u.st.locks = [] := by
    rcases hus with ⟨v', l', env', h⟩ | ⟨v', h⟩
    · have := hI.ok j u hu
      unfold Task.Ok at this
      simp only [h, Code.Ok] at this
      rw [h]; exact this.1
    · rw [h]; rfl
  refine hI.moved (s' := (s.to j (.close e.1 .done)).to i ((r v).proc zero id (futures (env.eraseIdx n)) (finish t.chan))) i
    (fun k => by rw [stat_set hui, stat_set hu]) ?_ ?_ (Nat.le_refl _) ?_ hI.alive ?_ ?_ ?_ ?_ ?_
    ((hI.locked.set hu (by rw [hul]; rfl)).set hui (by rw [hst]; rfl))
  · intro k w w' hk hk'
    rcases get hk' with ⟨rfl, rfl⟩ | ⟨rfl, rfl⟩ | ⟨_, _, h⟩
    · rw [ht] at hk; cases hk; rw [hte]; exact List.eraseIdx_sublist ..
    · exact List.nil_sublist _
    · rw [hk] at h; cases h; exact List.Sublist.refl _
  · intro k w' c hk hc
    rcases get hk with ⟨rfl, rfl⟩ | ⟨rfl, rfl⟩ | ⟨_, _, h⟩
    · cases hc
    · cases hc
    · exact .inl ⟨w', h, hc⟩
  · simp only [Config.to, hI.procs, List.map_set]
    simp only [Task.proc, huc]
  · intro k w hk
    rcases get hk with ⟨rfl, rfl⟩ | ⟨rfl, rfl⟩ | ⟨_, _, h⟩
    · unfold Task.Ok
      simp only [← TaskTree.eraseIdx_map]
      exact hok v
    · unfold Task.Ok; simp only [huc]; rfl
    · exact hI.ok k w h
  · intro c ch hch
    obtain ⟨h1, h2, h3⟩ := hI.chans c ch hch
    refine ⟨h1, h2, fun hcl => ?_⟩
    obtain ⟨k, w, hk, h6, h7⟩ := h3 hcl
    refine ⟨k, w, getk hk ?_ ?_, h6, h7⟩
    · rintro rfl
      rw [ht] at hk; cases hk
      rw [h7] at hst; cases hst
    · rintro rfl
      rw [hu] at hk; cases hk
      rw [h7] at hsu; cases hsu
  · intro k w' e' hk he' l w w2 hw hw2 hc hs
    rcases get hw2 with ⟨rfl, rfl⟩ | ⟨rfl, rfl⟩ | ⟨_, _, h⟩
    · rfl
    · exfalso
      rw [hu] at hw; cases hw
      rw [huc] at hc
      have hc : e.1 = e'.1 := by simpa using hc
      rcases get hk with ⟨rfl, rfl⟩ | ⟨rfl, rfl⟩ | ⟨h1, _, h⟩
      · exact gone (hc ▸ List.mem_map_of_mem he')
      · cases he'
      · exact h1 (hI.held k i w' t e.1 h ht (hc ▸ List.mem_map_of_mem he') (hte ▸ List.mem_map_of_mem hmem))
    · rw [hw] at h; cases h; exact hs
  · intro ha l w c hl hc hs
    have : l ≠ j ∧ ∃ w0, ts[l]? = some w0 ∧ w0.chan = some c ∧ w0.st.sent = false := by
      rcases get hl with ⟨rfl, rfl⟩ | ⟨rfl, rfl⟩ | ⟨_, h1, h⟩
      · exact ⟨hij, t, ht, hc, hst'⟩
      · cases hs
      · exact ⟨h1, w, h, hc, hs⟩
    obtain ⟨hlj, w0, h1, h2, h3⟩ := this
    obtain ⟨k, x, hk, hx⟩ := hI.holder ha l w0 c h1 h2 h3
    have hce : c ≠ e.1 := by
      rintro rfl
      exact hlj (hI.unique l j w0 u e.1 h1 hu h2 huc)
    by_cases hki : k = i
    · subst hki
      rw [ht] at hk
      cases hk
      refine ⟨k, _, geti, ?_⟩
      obtain ⟨e', he', rfl⟩ := List.mem_map.1 hx
      rw [hte] at he'
      refine List.mem_map_of_mem ?_
      simp only [TaskSt.env]
      rw [List.mem_eraseIdx_iff_getElem?]
      obtain ⟨m, hm⟩ := List.getElem?_of_mem he'
      refine ⟨m, ?_, hm⟩
      rintro rfl
      rw [he] at hm
      cases hm
      exact hce rfl
    · by_cases hkj : k = j
      · subst hkj
        rw [hu] at hk
        cases hk
        rcases hus with ⟨v, l, env', h⟩ | ⟨v, h⟩
        · have := hI.ok k u hu
          unfold Task.Ok at this
          simp only [h, Code.Ok] at this
          have := this.2 ha
          rw [h] at hx
          simp only [TaskSt.env] at hx
          rw [List.map_eq_nil_iff.1 this] at hx
          cases hx
        · rw [h] at hx; cases hx
      · exact ⟨k, x, getk hk hki hkj, hx⟩
  · intro t0 t0' h0 h0' hc htr
    rcases get h0' with ⟨rfl, rfl⟩ | ⟨rfl, rfl⟩ | ⟨_, _, h⟩
    · rw [ht] at h0; cases h0
      rw [htr, hst']; rfl
    · rw [hu] at h0; cases h0
      rw [huc] at hc; cases hc
    · rw [h0] at h; cases h; exact htr

/-- `go`: a task starts. -/
theorem Inv.started (hI : Inv rank zero all ts s tr) {i c : Nat} {t : Task V} {child r : Code V} {n : Nat} {l : List Nat} {env : List (Nat × Nat)}
    (ht : ts[i]? = some t) (hst : t.st = .going n child r c l env) :
    Inv rank zero all (ts.set i ⟨t.chan, t.level, .run r l (env ++ [(c, n)])⟩ ++
        [⟨some c, n, .run child [] []⟩])
      { s with procs := s.procs.set i (r.proc zero id (futures env ++ [⟨c⟩]) (finish t.chan)) ++
        [child.proc zero id [] (finish (some c))] } tr := by
  have hok := hI.ok i t ht
  unfold Task.Ok at hok
  simp only [hst] at hok
  have hil := (List.getElem?_eq_some_iff.1 ht).1
  have hfr : t.st.fresh = some c := by rw [hst]; rfl
  have hte : t.st.env = env := by rw [hst]; rfl
  have hts : t.st.sent = false := by rw [hst]; rfl
  have hcr : c < s.chans.length := hI.inRange i t c ht (.inr hfr)
  have hnc : c ∉ env.map Prod.fst := by
    intro h
    obtain ⟨e, he, rfl⟩ := List.mem_map.1 h
    obtain ⟨k, w, _, h2, h3, _⟩ := hI.owner i t e ht (hte ▸ he)
    exact hI.freshChan i k t w _ ht h2 hfr h3
  have get : ∀ {k : Nat} {w : Task V}, (ts.set i ⟨t.chan, t.level, .run r l (env ++ [(c, n)])⟩ ++
        [⟨some c, n, .run child [] []⟩])[k]? = some w →
      (k = i ∧ w = ⟨t.chan, t.level, .run r l (env ++ [(c, n)])⟩) ∨
      (k = ts.length ∧ w = ⟨some c, n, .run child [] []⟩) ∨ (k ≠ i ∧ ts[k]? = some w) := by
    intro k w h
    by_cases hk : k < ts.length
    · rw [List.getElem?_append_left (by simpa using hk)] at h
      rcases get_set h with h | h
      · exact .inl h
      · exact .inr (.inr h)
    · rw [List.getElem?_append_right (by simpa using hk)] at h
      have : k - (ts.set i ⟨t.chan, t.level, .run r l (env ++ [(c, n)])⟩).length = 0 := by
        rcases Nat.eq_zero_or_pos (k - (ts.set i ⟨t.chan, t.level, .run r l (env ++ [(c, n)])⟩).length) with h0 | h0
        · exact h0
        · rw [List.getElem?_eq_none (by simp only [List.length_cons, List.length_nil]; omega)] at h
          cases h
      rw [this] at h
      simp only [List.length_set] at this
      simp only [List.getElem?_cons_zero, Option.some.injEq] at h
      exact .inr (.inl ⟨by omega, h.symm⟩)
  have geti : (ts.set i ⟨t.chan, t.level, .run r l (env ++ [(c, n)])⟩ ++
        [⟨some c, n, .run child [] []⟩])[i]? = some ⟨t.chan, t.level, .run r l (env ++ [(c, n)])⟩ := by
    rw [List.getElem?_append_left (by simpa using hil)]
    exact set_get ht
  have getk : ∀ {k : Nat} {w : Task V}, ts[k]? = some w → k ≠ i → (ts.set i ⟨t.chan, t.level, .run r l (env ++ [(c, n)])⟩ ++
        [⟨some c, n, .run child [] []⟩])[k]? = some w := by
    intro k w h hk
    rw [List.getElem?_append_left (by simpa using (List.getElem?_eq_some_iff.1 h).1)]
    exact set_ne h hk
  have getn : (ts.set i ⟨t.chan, t.level, .run r l (env ++ [(c, n)])⟩ ++
        [⟨some c, n, .run child [] []⟩])[ts.length]? = some ⟨some c, n, .run child [] []⟩ := by
    rw [List.getElem?_append_right (by simp)]
    simp
  -- channels and levels stay, or are those of the new task
  have stat : ∀ {k : Nat} {w : Task V}, (ts.set i ⟨t.chan, t.level, .run r l (env ++ [(c, n)])⟩ ++
        [⟨some c, n, .run child [] []⟩])[k]? = some w →
      (∃ w0, ts[k]? = some w0 ∧ w.chan = w0.chan ∧ w.st.sent = w0.st.sent ∧ ∀ c', w.st.fresh = some c' → w0.st.fresh = some c' ∧ k ≠ i) ∨
      (k = ts.length ∧ w.chan = some c ∧ w.st.fresh = none) := by
    intro k w h
    rcases get h with ⟨rfl, rfl⟩ | ⟨rfl, rfl⟩ | ⟨h1, h⟩
    · exact .inl ⟨t, ht, rfl, hts.symm, fun _ h => by cases h⟩
    · exact .inr ⟨rfl, rfl, rfl⟩
    · exact .inl ⟨w, h, rfl, rfl, fun _ h => ⟨h, h1⟩⟩
  have notNew : ∀ {k : Nat} {w0 : Task V}, ts[k]? = some w0 → w0.chan ≠ some c := fun h => hI.freshChan i _ t _ c ht h hfr
  -- futures
  have futs : ∀ {k : Nat} {w : Task V} {c' : Nat}, (ts.set i ⟨t.chan, t.level, .run r l (env ++ [(c, n)])⟩ ++
        [⟨some c, n, .run child [] []⟩])[k]? = some w → c' ∈ w.st.env.map Prod.fst →
      (k = i ∧ c' = c) ∨ (c' ≠ c ∧ ∃ w0, ts[k]? = some w0 ∧ c' ∈ w0.st.env.map Prod.fst) := by
    intro k w c' h hc'
    have old : ∀ {k : Nat} {w0 : Task V}, ts[k]? = some w0 → c' ∈ w0.st.env.map Prod.fst → c' ≠ c := by
      rintro k w0 hk hm rfl
      obtain ⟨e, he, rfl⟩ := List.mem_map.1 hm
      obtain ⟨l, x, _, h2, h3, _⟩ := hI.owner k w0 e hk he
      exact notNew h2 h3
    rcases get h with ⟨rfl, rfl⟩ | ⟨rfl, rfl⟩ | ⟨h1, h⟩
    · simp only [TaskSt.env, List.map_append, List.mem_append, List.map_cons, List.map_nil, List.mem_singleton] at hc'
      rcases hc' with hc' | rfl
      · have : c' ∈ t.st.env.map Prod.fst := by rw [hte]; exact hc'
        exact .inr ⟨old ht this, t, ht, this⟩
      · exact .inl ⟨rfl, rfl⟩
    · cases hc'
    · exact .inr ⟨old h hc', w, h, hc'⟩
  constructor
  · simp only [hI.procs, List.map_append, List.map_set, List.map_cons, List.map_nil, Task.proc, futures]
  · exact hI.alive
  · intro k w hk
    rcases get hk with ⟨rfl, rfl⟩ | ⟨rfl, rfl⟩ | ⟨_, h⟩
    · unfold Task.Ok
      simp only [List.map_append, List.map_cons, List.map_nil]
      exact hok.2
    · exact hok.1
    · exact hI.ok k w h
  · intro c' ch hch
    obtain ⟨h1, h2, h3⟩ := hI.chans c' ch hch
    refine ⟨h1, h2, fun hcl => ?_⟩
    obtain ⟨k, w, hk, h6, h7⟩ := h3 hcl
    refine ⟨k, w, getk hk ?_, h6, h7⟩
    rintro rfl
    rw [ht] at hk; cases hk
    rw [h7] at hst; cases hst
  · intro k w c' hk h
    rcases stat hk with ⟨w0, h1, h2, _, h3⟩ | ⟨_, h2, h3⟩
    · rcases h with h | h
      · exact hI.inRange k w0 c' h1 (.inl (h2 ▸ h))
      · exact hI.inRange k w0 c' h1 (.inr (h3 c' h).1)
    · rcases h with h | h
      · rw [h2] at h; cases h; exact hcr
      · rw [h3] at h; cases h
  · intro a b w x c' ha hb hc hd
    rcases stat ha with ⟨w0, h1, h2, _, _⟩ | ⟨h1, h2, _⟩ <;> rcases stat hb with ⟨x0, h4, h5, _, _⟩ | ⟨h4, h5, _⟩
    · exact hI.unique a b w0 x0 c' h1 h4 (h2 ▸ hc) (h5 ▸ hd)
    · rw [h5] at hd; cases hd
      exact absurd (h2 ▸ hc) (notNew h1)
    · rw [h2] at hc; cases hc
      exact absurd (h5 ▸ hd) (notNew h4)
    · rw [h1, h4]
  · intro a b w x c' ha hb hc hd
    rcases stat ha with ⟨w0, h1, h2, _, h3⟩ | ⟨h1, h2, h3⟩
    · obtain ⟨h6, h7⟩ := h3 c' hc
      rcases stat hb with ⟨x0, h4, h5, _, _⟩ | ⟨h4, h5, _⟩
      · exact hI.freshChan a b w0 x0 c' h1 h4 h6 (h5 ▸ hd)
      · rw [h5] at hd; cases hd
        exact h7 (hI.freshOnce a i w0 t c h1 ht h6 hfr)
    · rw [h3] at hc; cases hc
  · intro a b w x c' ha hb hc hd
    rcases stat ha with ⟨w0, h1, h2, _, h3⟩ | ⟨h1, h2, h3⟩
    · rcases stat hb with ⟨x0, h4, h5, _, h6⟩ | ⟨h4, h5, h6⟩
      · exact hI.freshOnce a b w0 x0 c' h1 h4 (h3 _ hc).1 (h6 _ hd).1
      · rw [h6] at hd; cases hd
    · rw [h3] at hc; cases hc
  · intro k w hk
    rcases get hk with ⟨rfl, rfl⟩ | ⟨rfl, rfl⟩ | ⟨_, h⟩
    · simp only [TaskSt.env, List.map_append, List.map_cons, List.map_nil]
      rw [List.nodup_append]
      refine ⟨hte ▸ hI.nodup _ t ht, by simp, ?_⟩
      intro a ha b hb hab
      simp only [List.mem_singleton] at hb
      subst hb hab
      exact hnc ha
    · exact List.nodup_nil
    · exact hI.nodup k w h
  · intro a b w x c' ha hb hc hd
    rcases futs ha hc with ⟨h1, h2⟩ | ⟨h1, w0, h2, h3⟩ <;> rcases futs hb hd with ⟨h4, h5⟩ | ⟨h4, x0, h5, h6⟩
    · rw [h1, h4]
    · exact absurd h2 h4
    · exact absurd h5 h1
    · exact hI.held a b w0 x0 c' h2 h5 h3 h6
  · have old : ∀ {k : Nat} {w0 : Task V} {e : Nat × Nat}, ts[k]? = some w0 → e ∈ w0.st.env → ∃ (j : Nat) (u : Task V), k < j ∧
        (ts.set i ⟨t.chan, t.level, .run r l (env ++ [(c, n)])⟩ ++
          [⟨some c, n, .run child [] []⟩])[j]? = some u ∧ u.chan = some e.1 ∧ u.level = e.2 ∧ u.st.sent = false := by
      intro k w0 e hk he
      obtain ⟨j, u, h1, h2, h3, h4, h5⟩ := hI.owner k w0 e hk he
      by_cases hji : j = i
      · subst hji
        rw [ht] at h2; cases h2
        exact ⟨j, _, h1, geti, h3, h4, rfl⟩
      · exact ⟨j, u, h1, getk h2 hji, h3, h4, h5⟩
    intro k w e hk he
    rcases get hk with ⟨rfl, rfl⟩ | ⟨rfl, rfl⟩ | ⟨_, h⟩
    · simp only [TaskSt.env, List.mem_append, List.mem_singleton] at he
      rcases he with he | rfl
      · exact old ht (hte ▸ he)
      · exact ⟨ts.length, _, hil, getn, rfl, rfl, rfl⟩
    · cases he
    · exact old h he
  · intro ha j u c' hj hc hs
    rcases stat hj with ⟨w0, h1, h2, h3, _⟩ | ⟨h1, h2, _⟩
    · obtain ⟨k, x, hk, hx⟩ := hI.holder ha j w0 c' h1 (h2 ▸ hc) (h3 ▸ hs)
      by_cases hki : k = i
      · subst hki
        rw [ht] at hk; cases hk
        refine ⟨k, _, geti, ?_⟩
        simp only [TaskSt.env, List.map_append, List.mem_append]
        exact .inl (hte ▸ hx)
      · exact ⟨k, x, getk hk hki, hx⟩
    · rw [h2] at hc; cases hc
      exact ⟨i, _, geti, by simp [TaskSt.env]⟩
  · obtain ⟨m, h1, h2, h4⟩ := hI.main
    by_cases h0 : 0 = i
    · subst h0
      rw [ht] at h1; cases h1
      exact ⟨_, geti, h2, by rw [h4, hts]; rfl⟩
    · exact ⟨m, getk h1 h0, h2, h4⟩
  · intro k w hk hc
    rcases stat hk with ⟨w0, h1, h2, _, _⟩ | ⟨_, h2, _⟩
    · exact hI.others k w0 h1 (h2 ▸ hc)
    · rw [h2] at hc; cases hc
  · exact (hI.locked.set ht (by rw [hst]; rfl)).append rfl

/-- The futures a task holds are served by tasks that have not sent, on open channels. -/
theorem Inv.pending (hI : Inv rank zero all ts s tr) {i : Nat} {t : Task V} {e : Nat × Nat} (ht : ts[i]? = some t)
    (he : e ∈ t.st.env) : ∃ (j : Nat) (u : Task V), i < j ∧ ts[j]? = some u ∧ u.chan = some e.1 ∧ u.level = e.2 ∧ u.st.sent = false ∧
      ∃ ch, s.chans[e.1]? = some ch ∧ ch.closed = false ∧ ch.buf = [] := by
  obtain ⟨j, u, h1, h2, h3, h4, h5⟩ := hI.owner i t e ht he
  refine ⟨j, u, h1, h2, h3, h4, h5, ?_⟩
  have hlt := hI.inRange j u e.1 h2 (.inl h3)
  refine ⟨_, List.getElem?_eq_getElem hlt, ?_, (hI.chans _ _ (List.getElem?_eq_getElem hlt)).2.1⟩
  cases hcl : (s.chans[e.1]).closed with
  | false => rfl
  | true =>
    obtain ⟨k, w, h6, h7, h8⟩ := (hI.chans _ _ (List.getElem?_eq_getElem hlt)).2.2 hcl
    have := hI.unique j k u w _ h2 h6 h3 h7
    subst this
    rw [h2] at h6; cases h6
    rw [h8] at h5; cases h5

theorem Inv.open_ (hI : Inv rank zero all ts s tr) {i c : Nat} {t : Task V} (ht : ts[i]? = some t) (hc : t.chan = some c)
    (ho : t.st ≠ .over) {ch : Chan V} (hch : s.chans[c]? = some ch) : ch.closed = false := by
  cases hcl : ch.closed with
  | false => rfl
  | true =>
    obtain ⟨k, w, h6, h7, h8⟩ := (hI.chans _ _ hch).2.2 hcl
    have := hI.unique i k t w _ ht h6 hc h7
    subst this
    rw [ht] at h6; cases h6
    exact absurd h8 ho

theorem Inv.sender (hI : Inv rank zero all ts s tr) {i c : Nat} {v : V} {k : Proc V V} (h : SendsAt s i c v k) :
    ∃ t, ts[i]? = some t ∧ t.chan = some c ∧ k = .close c .done ∧
      ((∃ l env', t.st = .run (.ret v) l env') ∨ t.st = .parked v) := by
  rcases h with h | h
  · obtain ⟨t, ht, w⟩ := get_proc hI h
    cases w with
    | send hst hc => exact ⟨t, ht, hc, rfl, .inl ⟨_, _, hst⟩⟩
  · obtain ⟨t, ht, w⟩ := get_proc hI h
    cases w with
    | parked hst hc => exact ⟨t, ht, hc, rfl, .inr hst⟩

/-! ### Every execution ends -/

/-- What a task becomes, or gives rise to, in a step. -/
inductive Less : TaskSt V → TaskSt V → Prop
  | close : Less .over .closing
  | met {v} : Less .closing (.parked v)
  | sent {v l env} : Less .closing (.run (.ret v) l env)
  | park {v w l env} : Less (.parked v) (.run (.ret w) l env)
  | emit {v l env} : Less .over (.run (.ret v) l env)
  | make {n child r c l env l' env'} : Less (.going n child r c l env) (.run (.spawn child r) l' env')
  | go {n child r c l env l' env'} : Less (.run r l env) (.going n child r c l' env')
  | start {n child r c l env l' env'} : Less (.run child l env) (.going n child r c l' env')
  | await {i r v l env l' env'} : Less (.run (r v) l env) (.run (.await i r) l' env')
  | lock {m r l env l' env'} : Less (.run r l env) (.run (.lock m r) l' env')
  | unlock {m r l env l' env'} : Less (.run r l env) (.run (.unlock m r) l' env')
  | get {m r v l env l' env'} : Less (.run (r v) l env) (.run (.get m r) l' env')
  | put {m v r l env l' env'} : Less (.run r l env) (.run (.put m v r) l' env')

theorem less_wf : WellFounded (Less (V := V)) := by
  have over : Acc Less (.over : TaskSt V) := ⟨_, fun _ h => by cases h⟩
  have closing : Acc Less (.closing : TaskSt V) := ⟨_, fun _ h => by cases h; exact over⟩
  have parked : ∀ v : V, Acc Less (.parked v) := fun v => ⟨_, fun _ h => by cases h; exact closing⟩
  have going : ∀ (child r : Code V), (∀ l env, Acc Less (.run child l env)) → (∀ l env, Acc Less (.run r l env)) →
      ∀ n c l env, Acc Less (.going n child r c l env) := fun child r h1 h2 n c l env => ⟨_, fun _ h => by
    cases h
    · exact h2 _ _
    · exact h1 _ _⟩
  have run : ∀ (k : Code V) l env, Acc Less (.run k l env) := by
    intro k
    induction k with
    | ret v => exact fun l env => ⟨_, fun _ h => by
        cases h
        · exact closing
        · exact parked _
        · exact over⟩
    | spawn child r h1 h2 => exact fun l env => ⟨_, fun _ h => by cases h; exact going child r h1 h2 _ _ _ _⟩
    | await i r ih => exact fun l env => ⟨_, fun _ h => by cases h; exact ih _ _ _⟩
    | lock m r ih => exact fun l env => ⟨_, fun _ h => by cases h; exact ih _ _⟩
    | unlock m r ih => exact fun l env => ⟨_, fun _ h => by cases h; exact ih _ _⟩
    | get m r ih => exact fun l env => ⟨_, fun _ h => by cases h; exact ih _ _ _⟩
    | put m v r ih => exact fun l env => ⟨_, fun _ h => by cases h; exact ih _ _⟩
  refine ⟨fun st => ?_⟩
  cases st with
  | run k l env => exact run k l env
  | going n child r c l env => exact going child r (run child) (run r) n c l env
  | parked v => exact parked v
  | closing => exact closing
  | over => exact over

/-- The states of all tasks. -/
def bag (ts : List (Task V)) : Multiset (TaskSt V) := ((ts.map Task.st : List (TaskSt V)) : Multiset (TaskSt V))

/-- What the tasks become in a step. -/
def Moves (ts' ts : List (Task V)) : Prop := Relation.TransGen (Relation.CutExpand Less) (bag ts') (bag ts)

theorem bag_set {i : Nat} {t t' : Task V} (h : ts[i]? = some t) : bag (ts.set i t') + {t.st} = bag ts + {t'.st} := by
  induction ts generalizing i with
  | nil => simp at h
  | cons a ts ih =>
    have hc : ∀ (b : Task V) (l : List (Task V)), bag (b :: l) = b.st ::ₘ bag l := fun _ _ => rfl
    cases i with
    | zero =>
      simp only [List.getElem?_cons_zero, Option.some.injEq] at h
      subst h
      rw [List.set_cons_zero, hc, hc, Multiset.cons_add, Multiset.cons_add, Multiset.add_comm, Multiset.singleton_add,
        Multiset.add_comm (bag ts), Multiset.singleton_add, Multiset.cons_swap]
    | succ i =>
      simp only [List.getElem?_cons_succ] at h
      rw [List.set_cons_succ, hc, hc, Multiset.cons_add, Multiset.cons_add, ih h]

theorem moves_one {i : Nat} {t t' : Task V} (h : ts[i]? = some t) (hl : Less t'.st t.st) : Moves (ts.set i t') ts :=
  .single ⟨{t'.st}, t.st, fun a ha => by rw [Multiset.mem_singleton.1 ha]; exact hl, bag_set h⟩

theorem moves_two {i : Nat} {t t' u : Task V} (h : ts[i]? = some t) (hl : Less t'.st t.st) (hu : Less u.st t.st) :
    Moves (ts.set i t' ++ [u]) ts := by
  refine .single ⟨t'.st ::ₘ {u.st}, t.st, fun a ha => ?_, ?_⟩
  · rcases Multiset.mem_cons.1 ha with rfl | ha
    · exact hl
    · rw [Multiset.mem_singleton.1 ha]; exact hu
  · have : bag (ts.set i t' ++ [u]) = bag (ts.set i t') + {u.st} := by
      simp only [bag, List.map_append, List.map_cons, List.map_nil]; rfl
    rw [this, Multiset.add_assoc, Multiset.add_comm {u.st}, ← Multiset.add_assoc, bag_set h, Multiset.add_assoc]
    rfl

/-! ### Steps -/

/-- What the tasks and the values `f` of the Mutexes become in a step that shows the given result. -/
inductive Did (ts : List (Task V)) (f : Nat → V) : Option V → List (Task V) → (Nat → V) → Prop
  | emit {i t v l env} (ht : ts[i]? = some t) (hst : t.st = .run (.ret v) l env) (hc : t.chan = none) :
    Did ts f (some v) (ts.set i ⟨t.chan, t.level, .over⟩) f
  | make {i t n child r c l env} (ht : ts[i]? = some t) (hst : t.st = .run (.spawn child r) l env)
    (new : ∀ (j : Nat) u, ts[j]? = some u → u.chan ≠ some c ∧ c ∉ u.st.env.map Prod.fst ∧ u.st.fresh ≠ some c) :
    Did ts f none (ts.set i ⟨t.chan, t.level, .going n child r c l env⟩) f
  | go {i t n child r c l env} (ht : ts[i]? = some t) (hst : t.st = .going n child r c l env) :
    Did ts f none (ts.set i ⟨t.chan, t.level, .run r l (env ++ [(c, n)])⟩ ++ [⟨some c, n, .run child [] []⟩]) f
  | park {i t v c l env} (ht : ts[i]? = some t) (hst : t.st = .run (.ret v) l env) (hc : t.chan = some c) :
    Did ts f none (ts.set i ⟨t.chan, t.level, .parked v⟩) f
  | meet {i j t u n r l env e v} (ht : ts[i]? = some t) (hu : ts[j]? = some u) (hij : i ≠ j)
    (hst : t.st = .run (.await n r) l env) (he : env[n]? = some e) (huc : u.chan = some e.1)
    (hus : (∃ l env', u.st = .run (.ret v) l env') ∨ u.st = .parked v) :
    Did ts f none ((ts.set j ⟨u.chan, u.level, .closing⟩).set i ⟨t.chan, t.level, .run (r v) l (env.eraseIdx n)⟩) f
  | close {i t} (ht : ts[i]? = some t) (hst : t.st = .closing) : Did ts f none (ts.set i ⟨t.chan, t.level, .over⟩) f
  | lock {i t m r l env} (ht : ts[i]? = some t) (hst : t.st = .run (.lock m r) l env)
    (free : ∀ (j : Nat) u, ts[j]? = some u → m ∉ u.st.locks) : Did ts f none (ts.set i ⟨t.chan, t.level, .run r (m :: l) env⟩) f
  | unlock {i t m r l env} (ht : ts[i]? = some t) (hst : t.st = .run (.unlock m r) l env) (hm : m ∈ l) :
    Did ts f none (ts.set i ⟨t.chan, t.level, .run r (l.erase m) env⟩) f
  | get {i t m r l env} (ht : ts[i]? = some t) (hst : t.st = .run (.get m r) l env) (hm : m ∈ l) :
    Did ts f none (ts.set i ⟨t.chan, t.level, .run (r (f m)) l env⟩) f
  | put {i t m v r l env} (ht : ts[i]? = some t) (hst : t.st = .run (.put m v r) l env) (hm : m ∈ l) :
    Did ts f none (ts.set i ⟨t.chan, t.level, .run r l env⟩) (upd f m v)

theorem Inv.step (hI : Inv rank zero all ts s tr) {e : Option V} (h : Step s e s') :
    ∃ ts', Inv rank zero all ts' s' (tr ++ e.toList) ∧ Moves ts' ts ∧ Did ts s.vars e ts' s'.vars := by
  have chans0 : ∀ (c : Nat) ch, s.chans[c]? = some ch → ch.cap = 0 ∧ ch.buf = [] := fun c ch h => ⟨(hI.chans c ch h).1, (hI.chans c ch h).2.1⟩
  have nil : tr ++ (none : Option V).toList = tr := by simp
  -- a step of a single task that sends and receives nothing
  have local_ : ∀ {i : Nat} {t : Task V} {k k' : Code V} {l l' : List Nat} {env : List (Nat × Nat)} {s' : Config V V},
      ts[i]? = some t → t.st = .run k l env → Less (.run k' l' env) (.run k l env) → s'.chans = s.chans → s'.crashed = s.crashed →
      s'.procs = s.procs.set i (k'.proc zero id (futures env) (finish t.chan)) → k'.Ok rank all t.level l' (env.map Prod.snd) →
      Locked (ts.set i ⟨t.chan, t.level, .run k' l' env⟩) s'.locks →
      Did ts s.vars none (ts.set i ⟨t.chan, t.level, .run k' l' env⟩) s'.vars →
      ∃ ts', Inv rank zero all ts' s' (tr ++ (none : Option V).toList) ∧ Moves ts' ts ∧ Did ts s.vars none ts' s'.vars := by
    intro i t k k' l l' env s' ht hst hl hch hcr hp hok hlk hdid
    refine ⟨_, hI.one (st := .run k' l' env) ht (by rw [hst]; exact List.Sublist.refl _) (fun _ => by rw [hst]; rfl)
      (fun c hc => by cases hc) (by rw [hch]) hp (by rw [hcr]; exact hI.alive) hok
      (fun c ch hc => ?_) (by rw [hst]; simp) (fun _ => .inl rfl) (fun h => by rw [hst] at h; cases h)
      (fun _ _ => by rw [nil]; simp [TaskSt.sent]) (fun _ => nil) hlk, moves_one ht (by rw [hst]; exact hl), hdid⟩
    rw [hch] at hc
    exact ⟨(chans0 c ch hc).1, (chans0 c ch hc).2, fun hcl => .inl ⟨ch, hc, hcl⟩⟩
  cases h with
  | emit hc h =>
    obtain ⟨t, ht, w⟩ := get_proc hI h
    cases w with
    | emit hst hch =>
      have hok := hI.ok _ t ht
      unfold Task.Ok at hok
      simp only [hst, Code.Ok] at hok
      refine ⟨_, hI.one (st := .over) ht (List.nil_sublist _) (fun ha => ?_) (fun c hc => by cases hc) (Nat.le_refl _) rfl hI.alive
        trivial (fun c ch hc => ⟨(chans0 c ch hc).1, (chans0 c ch hc).2, fun hcl => .inl ⟨ch, hc, hcl⟩⟩) (by rw [hst]; simp)
        (fun _ => .inr hch) (fun _ => rfl) (fun _ _ => ?_) (fun hn => absurd hch hn)
        (hI.locked.set ht (by rw [hst]; exact hok.1.symm)), moves_one ht (by rw [hst]; exact .emit), .emit ht hst hch⟩
      · have := hok.2 ha
        rw [hst]
        exact List.map_eq_nil_iff.1 this
      · simp [TaskSt.sent]
  | tau hc h => obtain ⟨t, ht, w⟩ := get_proc hI h; cases w
  | go hc h =>
    obtain ⟨t, ht, w⟩ := get_proc hI h
    cases w with
    | go hst =>
      exact ⟨_, by rw [Option.toList_none, List.append_nil]; exact hI.started ht hst,
        moves_two ht (by rw [hst]; exact .go) (by rw [hst]; exact .start), .go ht hst⟩
  | make hc h =>
    obtain ⟨t, ht, w⟩ := get_proc hI h
    cases w with
    | @make child r l env hst =>
      have hok := hI.ok _ t ht
      unfold Task.Ok at hok
      simp only [hst, Code.Ok] at hok
      obtain ⟨n, hok⟩ := hok
      refine ⟨_, hI.one (st := .going n child r s.chans.length l env) ht (by rw [hst]; exact List.Sublist.refl _)
          (fun _ => by rw [hst]; rfl) (fun c hc => ⟨by simpa [TaskSt.fresh] using hc.symm, by simp⟩) (by simp) rfl hI.alive
          hok (fun c ch hch => ?_) (by rw [hst]; simp) (fun _ => .inl rfl)
          (fun h => by rw [hst] at h; cases h) (fun _ _ => by rw [nil]; simp [TaskSt.sent]) (fun _ => nil)
          (hI.locked.set ht (by rw [hst]; rfl)), moves_one ht (by rw [hst]; exact .make), .make ht hst fun j u hu => ⟨fun h => ?_, fun h => ?_, fun h => ?_⟩⟩
      · by_cases hl : c < s.chans.length
        · simp only [List.getElem?_append_left hl] at hch
          exact ⟨(chans0 c ch hch).1, (chans0 c ch hch).2, fun hcl => .inl ⟨ch, hch, hcl⟩⟩
        simp only [List.getElem?_append_right (Nat.le_of_not_lt hl)] at hch
        rcases Nat.eq_zero_or_pos (c - s.chans.length) with h0 | h0
        · rw [h0] at hch
          simp only [List.getElem?_cons_zero, Option.some.injEq] at hch
          subst hch
          exact ⟨rfl, rfl, fun h => by cases h⟩
        · rw [List.getElem?_eq_none (by simp only [List.length_cons, List.length_nil]; omega)] at hch
          cases hch
      · exact Nat.lt_irrefl _ (hI.inRange j u _ hu (.inl h))
      · obtain ⟨e, he, h⟩ := List.mem_map.1 h
        obtain ⟨k, w, _, h2, h3, _⟩ := hI.owner j u e hu he
        exact Nat.lt_irrefl _ (hI.inRange k w _ h2 (.inl (h ▸ h3)))
      · exact Nat.lt_irrefl _ (hI.inRange j u _ hu (.inr h))
  | @park i c v k ch hc h hch hcl =>
    obtain ⟨t, ht, w⟩ := get_proc hI h
    cases w with
    | send hst htc =>
      have hok := hI.ok _ t ht
      unfold Task.Ok at hok
      simp only [hst, Code.Ok] at hok
      refine ⟨_, hI.one (st := .parked v) ht (List.nil_sublist _) (fun ha => ?_) (fun c hc => by cases hc) (Nat.le_refl _)
          (by simp only [Config.to, Task.proc, htc]) hI.alive (by unfold Task.Ok; simp only [htc]; rfl)
          (fun c ch hc => ⟨(chans0 c ch hc).1, (chans0 c ch hc).2, fun hcl => .inl ⟨ch, hc, hcl⟩⟩) (by rw [hst]; simp)
          (fun _ => .inl rfl) (fun h => by rw [hst] at h; cases h) (fun hn => by rw [htc] at hn; cases hn) (fun _ => nil)
          (hI.locked.set ht (by rw [hst]; exact hok.1.symm)), moves_one ht (by rw [hst]; exact .park), .park ht hst htc⟩
      have := hok.2 ha
      rw [hst]
      exact List.map_eq_nil_iff.1 this
  | sendBuf hc h hch hcl hb => rw [(chans0 _ _ hch).1] at hb; exact absurd hb (Nat.not_lt_zero _)
  | sendClosed hc h hch hcl =>
    obtain ⟨t, ht, h1, _, h2⟩ := hI.sender h
    rw [hI.open_ ht h1 (by rcases h2 with ⟨l, env', h⟩ | h <;> rw [h] <;> simp) hch] at hcl
    cases hcl
  | @meet i j c v k r ch hc h hj hch hcl hb =>
    obtain ⟨u, hu, huc, rfl, hus⟩ := hI.sender h
    obtain ⟨t, ht, w⟩ := get_proc hI hj
    cases w with
    | @recv n r l env e hst he =>
      obtain ⟨j', u', hlt, h2, h3, h4, _⟩ := hI.owner _ t e ht (by rw [hst]; exact List.mem_of_getElem? he)
      have := hI.unique _ _ u u' _ hu h2 huc h3
      subst this
      rw [hu] at h2; cases h2
      have hm := hI.meet (v := v) ht hu hst he huc (hus.elim (fun h => .inl ⟨v, h⟩) fun h => .inr ⟨v, h⟩)
      have hij : j ≠ i := by omega
      refine ⟨_, by rw [Option.toList_none, List.append_nil]; exact hm, ?_, .meet ht hu hij hst he huc hus⟩
      refine Relation.TransGen.trans (moves_one (set_ne ht hij) (by rw [hst]; exact .await)) (moves_one hu ?_)
      rcases hus with ⟨l, env', h⟩ | h <;> rw [h]
      · exact .sent
      · exact .met
  | meetPoll hc h hj hch hcl hb => obtain ⟨t, ht, w⟩ := get_proc hI hj; cases w
  | recvBuf hc hj hch hb => rw [(chans0 _ _ hch).2] at hb; cases hb
  | pollBuf hc hj hch hb => rw [(chans0 _ _ hch).2] at hb; cases hb
  | recvClosed hc hj hch hcl hb =>
    obtain ⟨t, ht, w⟩ := get_proc hI hj
    cases w with
    | recv hst he =>
      obtain ⟨_, _, _, _, _, _, _, ch', h1, h2, _⟩ := hI.pending ht (by rw [hst]; exact List.mem_of_getElem? he)
      rw [hch] at h1; cases h1
      rw [hcl] at h2; cases h2
  | pollClosed hc hj hch hcl hb => obtain ⟨t, ht, w⟩ := get_proc hI hj; cases w
  | pollDefault hc hj hch hcl hb hn => obtain ⟨t, ht, w⟩ := get_proc hI hj; cases w
  | close hc h hch hcl =>
    obtain ⟨t, ht, w⟩ := get_proc hI h
    cases w with
    | close hst htc =>
      refine ⟨_, hI.one (st := .over) ht (List.nil_sublist _) (fun ha => by rw [hst]; rfl) (fun c hc => by cases hc) (by simp)
          rfl hI.alive trivial (fun c' ch' hc' => ?_) (by rw [hst]; simp) (fun h => by rw [hst] at h; cases h) (fun _ => rfl)
          (fun hn => by rw [htc] at hn; cases hn) (fun _ => nil) (hI.locked.set ht (by rw [hst]; rfl)),
          moves_one ht (by rw [hst]; exact .close), .close ht hst⟩
      simp only [List.getElem?_set] at hc'
      split at hc'
      · next hcc =>
        subst hcc
        split at hc'
        · simp only [Option.some.injEq] at hc'
          subst hc'
          exact ⟨(chans0 _ _ hch).1, (chans0 _ _ hch).2, fun _ => .inr ⟨htc, rfl⟩⟩
        · cases hc'
      · exact ⟨(chans0 _ _ hc').1, (chans0 _ _ hc').2, fun hcl => .inl ⟨ch', hc', hcl⟩⟩
  | closeClosed hc h hch hcl =>
    obtain ⟨t, ht, w⟩ := get_proc hI h
    cases w with
    | close hst htc =>
      rw [hI.open_ ht htc (by rw [hst]; simp) hch] at hcl
      cases hcl
  | @lock i m k hc h hl =>
    obtain ⟨t, ht, w⟩ := get_proc hI h
    cases w with
    | @lock m r l env hst =>
      have hok := hI.ok _ t ht
      unfold Task.Ok at hok
      simp only [hst, Code.Ok] at hok
      refine local_ ht hst .lock rfl rfl rfl hok.2.2 (hI.locked.lock ht hl (by rw [hst]; rfl)) (.lock ht hst fun j u hu hm => ?_)
      rw [(hI.locked.iff m).2 ⟨j, u, hu, hm⟩] at hl
      cases hl
  | tryLock hc h => obtain ⟨t, ht, w⟩ := get_proc hI h; cases w
  | tryLockFails hc h => obtain ⟨t, ht, w⟩ := get_proc hI h; cases w
  | unlock hc h hl =>
    obtain ⟨t, ht, w⟩ := get_proc hI h
    cases w with
    | @unlock m r l env hst =>
      have hok := hI.ok _ t ht
      unfold Task.Ok at hok
      simp only [hst, Code.Ok] at hok
      exact local_ ht hst .unlock rfl rfl rfl hok.2 (hI.locked.unlock ht (by rw [hst]; exact hok.1) (by rw [hst]; rfl))
        (.unlock ht hst hok.1)
  | @unlockFree i m k hc h hl =>
    obtain ⟨t, ht, w⟩ := get_proc hI h
    cases w with
    | unlock hst =>
      have hok := hI.ok _ t ht
      unfold Task.Ok at hok
      simp only [hst, Code.Ok] at hok
      rw [(hI.locked.iff m).2 ⟨_, t, ht, by rw [hst]; exact hok.1⟩] at hl
      cases hl
  | load hc h =>
    obtain ⟨t, ht, w⟩ := get_proc hI h
    cases w with
    | @load m r l env hst =>
      have hok := hI.ok _ t ht
      unfold Task.Ok at hok
      simp only [hst, Code.Ok] at hok
      exact local_ ht hst .get rfl rfl rfl (hok.2 _) (hI.locked.set ht (by rw [hst]; rfl)) (.get ht hst hok.1)
  | store hc h =>
    obtain ⟨t, ht, w⟩ := get_proc hI h
    cases w with
    | @store m v r l env hst =>
      have hok := hI.ok _ t ht
      unfold Task.Ok at hok
      simp only [hst, Code.Ok] at hok
      exact local_ ht hst .put rfl rfl rfl hok.2 (hI.locked.set ht (by rw [hst]; rfl)) (.put ht hst hok.1)

/-! ### Progress -/

/-- What the task is about to wait for, if anything, is not below `b`. -/
def TaskSt.Above (rank : Nat → Nat) (b : Nat) : TaskSt V → Prop
  | .run (.lock m _) _ _ => b ≤ rank m
  | .run (.await i _) _ env => ∀ e, env[i]? = some e → b ≤ e.2
  | _ => True

theorem Task.Ok.above {t : Task V} (h : t.Ok rank all) : t.st.Above rank t.level := by
  unfold Task.Ok at h
  cases hst : t.st with
  | run k l env =>
    rw [hst] at h
    cases k with
    | lock m r => exact h.1
    | await i r =>
      intro e he
      obtain ⟨n, h1, h2, _⟩ := h
      rw [List.getElem?_map, he] at h1
      cases h1
      exact h2
    | _ => trivial
  | _ => trivial

theorem TaskSt.Above.mono {st : TaskSt V} {a b : Nat} (h : st.Above rank a) (hb : b ≤ a) : st.Above rank b := by
  unfold TaskSt.Above at h ⊢
  split
  · exact Nat.le_trans hb h
  · exact fun e he => Nat.le_trans hb (h e he)
  · trivial

/-- A task that has locked a Mutex waits for something of a higher rank, if at all. -/
theorem Task.Ok.above_locked {t : Task V} (h : t.Ok rank all) {m : Nat} (hm : m ∈ t.st.locks) : t.st.Above rank (rank m + 1) := by
  unfold Task.Ok at h
  cases hst : t.st with
  | run k l env =>
    rw [hst] at h hm
    cases k with
    | lock m' r => exact h.2.1 m hm
    | await i r =>
      intro e he
      obtain ⟨n, h1, _, h2, _⟩ := h
      rw [List.getElem?_map, he] at h1
      cases h1
      exact h2 m hm
    | _ => trivial
  | _ => trivial

theorem Inv.progress (hI : Inv rank zero all ts s tr) {top : Nat} (htop : ∀ (i : Nat) t m, ts[i]? = some t → m ∈ t.st.locks → rank m < top) :
    ∀ (d b : Nat), top - b ≤ d → ∀ (n i : Nat) (t : Task V), ts.length - i ≤ n → ts[i]? = some t → t.st ≠ .over →
    (∀ v, t.st ≠ .parked v) → t.st.Above rank b → ∃ e s', Step s e s' := by
  intro d
  induction d with
  | zero => ?_
  | succ d ihd => ?_
  all_goals
    intro b hd n
    induction n with
    | zero =>
      intro i t hn ht _ _ _
      have := (List.getElem?_eq_some_iff.1 ht).1
      omega
    | succ n ih =>
      intro i t hn ht ho hp ha
      have hproc : s.procs[i]? = some (t.proc zero) := by rw [hI.procs, List.getElem?_map, ht]; rfl
      have hok := hI.ok i t ht
      have hok0 := hok
      unfold Task.Ok at hok
      have isOpen : ∀ {c : Nat}, t.chan = some c → ∃ ch, s.chans[c]? = some ch ∧ ch.closed = false := by
        intro c hc
        have hlt := hI.inRange i t c ht (.inl hc)
        exact ⟨_, List.getElem?_eq_getElem hlt, hI.open_ ht hc ho (List.getElem?_eq_getElem hlt)⟩
      cases hst : t.st with
      | over => exact absurd hst ho
      | parked v => exact absurd hst (hp v)
      | going _ child r c _ env =>
        simp only [Task.proc, hst] at hproc
        exact ⟨_, _, .go hI.alive hproc⟩
      | closing =>
        rw [hst] at hok
        obtain ⟨c, hc⟩ := Option.isSome_iff_exists.1 hok
        simp only [Task.proc, hst, hc] at hproc
        obtain ⟨ch, h1, h2⟩ := isOpen hc
        exact ⟨_, _, .close hI.alive hproc h1 h2⟩
      | run k l env =>
        simp only [Task.proc, hst] at hproc
        cases k with
        | ret v =>
          cases hc : t.chan with
          | none =>
            rw [hc] at hproc
            exact ⟨_, _, .emit hI.alive hproc⟩
          | some c =>
            rw [hc] at hproc
            obtain ⟨ch, h1, h2⟩ := isOpen hc
            exact ⟨_, _, .park hI.alive hproc h1 h2⟩
        | spawn child r => exact ⟨_, _, .make hI.alive hproc⟩
        | get m r => exact ⟨_, _, .load hI.alive hproc⟩
        | put m v r => exact ⟨_, _, .store hI.alive hproc⟩
        | unlock m r =>
          simp only [hst, Code.Ok] at hok
          exact ⟨_, _, .unlock hI.alive hproc ((hI.locked.iff m).2 ⟨i, t, ht, by rw [hst]; exact hok.1⟩)⟩
        | await m r =>
          simp only [hst, Code.Ok] at hok
          obtain ⟨x, hx, _⟩ := hok
          rw [List.getElem?_map, Option.map_eq_some_iff] at hx
          obtain ⟨e, he, _⟩ := hx
          simp only [Code.proc, futures, List.getElem?_map, he, Option.map_some, Gokio.await] at hproc
          obtain ⟨j, u, h1, h2, h3, h4, h5, ch, h6, h7, h8⟩ := hI.pending ht (by rw [hst]; exact List.mem_of_getElem? he)
          have huproc : s.procs[j]? = some (u.proc zero) := by rw [hI.procs, List.getElem?_map, h2]; rfl
          have hlt := (List.getElem?_eq_some_iff.1 h2).1
          by_cases hup : ∃ v, u.st = .parked v
          · obtain ⟨v, hup⟩ := hup
            simp only [Task.proc, hup, h3] at huproc
            exact ⟨_, _, .meet hI.alive (.waiting huproc) hproc h6 h7 h8⟩
          · refine ih j u (by omega) h2 (by intro h; rw [h] at h5; cases h5) (fun v hv => hup ⟨v, hv⟩) ?_
            rw [hst] at ha
            exact (hI.ok j u h2).above.mono (by rw [h4]; exact ha e he)
        | lock m r =>
          rw [lock_proc] at hproc
          cases hl : s.locks m with
          | false => exact ⟨_, _, .lock hI.alive hproc hl⟩
          | true =>
            obtain ⟨j, u, hj, hu⟩ := (hI.locked.iff m).1 hl
            have hb : b ≤ rank m := by rw [hst] at ha; exact ha
            have ht' := htop j u m hj hu
            first
              | omega
              | exact ihd (rank m + 1) (by omega) ts.length j u (by omega) hj (by intro h; rw [h] at hu; cases hu)
                  (by intro v h; rw [h] at hu; cases hu) ((hI.ok j u hj).above_locked hu)

theorem initial (f : Nat → V) {base : Nat} {code : Code V} (hs : code.Ok rank all base [] []) :
    Inv rank zero all [⟨none, base, .run code [] []⟩] (program zero f code) [] := by
  have get : ∀ {k : Nat} {w : Task V}, [Task.mk none base (.run code [] [])][k]? = some w →
      k = 0 ∧ w = ⟨none, base, .run code [] []⟩ := by
    intro k w h
    cases k with
    | zero => exact ⟨rfl, by simpa using h.symm⟩
    | succ k => simp at h
  refine ⟨rfl, rfl, ?_, ?_, ?_, ?_, ?_, ?_, ?_, ?_, ?_, ?_, ⟨_, rfl, rfl, rfl⟩, fun i t h _ => (get h).1, ?_⟩
  · intro i t h
    rw [(get h).2]
    exact hs
  · intro c ch h
    simp [program, start] at h
  · intro i t c h hc
    rw [(get h).2] at hc
    rcases hc with h | h <;> cases h
  · intro i j t u c h h' _ _
    rw [(get h).1, (get h').1]
  · intro i j t u c h h' hf
    rw [(get h).2] at hf
    cases hf
  · intro i j t u c h h' _ _
    rw [(get h).1, (get h').1]
  · intro i t h
    rw [(get h).2]
    exact List.nodup_nil
  · intro i j t u c h h' _ _
    rw [(get h).1, (get h').1]
  · intro i t e h he
    rw [(get h).2] at he
    cases he
  · intro _ j u c h hc _
    rw [(get h).2] at hc
    cases hc
  · refine ⟨fun m => ⟨fun h => (by cases h), ?_⟩, fun i j t u m h h' _ _ => by rw [(get h).1, (get h').1], fun i t h => ?_⟩
    · rintro ⟨i, t, h, hm⟩
      rw [(get h).2] at hm
      cases hm
    · rw [(get h).2]; exact List.nodup_nil

theorem run_inv {f : Nat → V} {base : Nat} {code : Code V} (hs : code.Ok rank all base [] []) (h : Run (program zero f code) tr s) :
    ∃ ts, Inv rank zero all ts s tr := by
  induction h with
  | nil => exact ⟨_, initial f hs⟩
  | step _ h ih =>
    obtain ⟨ts, hI⟩ := ih
    obtain ⟨ts', hI', _⟩ := hI.step h
    exact ⟨ts', hI'⟩

theorem Inv.acc (hI : Inv rank zero all ts s tr) : Acc (fun t s : Config V V => ∃ e, Step s e t) s := by
  have key : ∀ b : Multiset (TaskSt V), Acc (Relation.TransGen (Relation.CutExpand Less)) b → ∀ (ts : List (Task V)) (s : Config V V) (tr : List V),
      Inv rank zero all ts s tr → bag ts = b → Acc (fun t s : Config V V => ∃ e, Step s e t) s := by
    intro b hb
    induction hb with
    | intro b _ ih =>
      rintro ts s tr hI rfl
      refine ⟨_, ?_⟩
      rintro s' ⟨e, st⟩
      obtain ⟨ts', hI', hm, _⟩ := hI.step st
      exact ih _ hm ts' s' _ hI' rfl
  exact key _ ((less_wf.cutExpand.transGen).apply _) ts s tr hI rfl

theorem le_sum (l : List Nat) (a : Nat) (h : a ∈ l) : a ≤ l.sum := by
  induction l with
  | nil => cases h
  | cons b l ih =>
    rw [List.sum_cons]
    rcases List.mem_cons.1 h with rfl | h
    · omega
    · have := ih h; omega

/-- Where the program stops. -/
theorem Inv.stopped (hI : Inv rank zero all ts s tr) (hn : ¬ ∃ e s', Step s e s') :
    tr.length = 1 ∧ ∀ (i : Nat) t, ts[i]? = some t → t.st = .over ∨ ((∃ v, t.st = .parked v) ∧ all = false) := by
  have hfin : ∃ top, ∀ (i : Nat) t m, ts[i]? = some t → m ∈ t.st.locks → rank m < top := by
    refine ⟨(ts.map fun t => (t.st.locks.map rank).sum).sum + 1, fun i t m hi hm => ?_⟩
    have h1 : rank m ≤ (t.st.locks.map rank).sum := le_sum _ _ (List.mem_map_of_mem hm)
    have h2 : (t.st.locks.map rank).sum ≤ (ts.map fun t => (t.st.locks.map rank).sum).sum :=
      le_sum _ _ (List.mem_map.2 ⟨t, List.mem_of_getElem? hi, rfl⟩)
    omega
  obtain ⟨top, htop⟩ := hfin
  have h1 : ∀ (i : Nat) t, ts[i]? = some t → t.st = .over ∨ ∃ v, t.st = .parked v := by
    intro i t ht
    by_cases ho : t.st = .over
    · exact .inl ho
    · by_cases hp : ∃ v, t.st = .parked v
      · exact .inr hp
      · exact absurd (hI.progress htop _ 0 (Nat.le_refl _) _ i t (Nat.le_refl _) ht ho (fun v hv => hp ⟨v, hv⟩)
          ((hI.ok i t ht).above.mono (Nat.zero_le _))) hn
  refine ⟨?_, fun i t ht => ?_⟩
  · obtain ⟨t, ht, hc, htr⟩ := hI.main
    rcases h1 0 t ht with h | ⟨v, h⟩
    · rw [htr, h]; rfl
    · have := hI.ok 0 t ht
      unfold Task.Ok at this
      rw [h, hc] at this
      cases this
  · rcases h1 i t ht with h | ⟨v, h⟩
    · exact .inl h
    · refine .inr ⟨⟨v, h⟩, ?_⟩
      cases ha : all with
      | false => rfl
      | true =>
        exfalso
        have hok := hI.ok i t ht
        unfold Task.Ok at hok
        rw [h] at hok
        obtain ⟨c, hc⟩ := Option.isSome_iff_exists.1 hok
        obtain ⟨k, u, hk, hu⟩ := hI.holder ha i t c ht hc (by rw [h]; rfl)
        rcases h1 k u hk with h2 | ⟨_, h2⟩ <;> rw [h2] at hu <;> cases hu
end
end TaskLocks

open TaskLocks
variable {V : Type}

/-! ### The theorems -/

/-- C164: a program of gokio tasks that spawn and await tasks and share Mutexes never panics, if the tasks keep to the discipline
`Code.Ok` for some ranking of the Mutexes: no Mutex is unlocked that is not locked, no channel closed twice.  main shows at most one
result. -/
theorem C164_safe (rank : Nat → Nat) (zero : V) (f : Nat → V) {base : Nat} {code : Code V} (hs : code.Ok rank false base [] [])
    {tr : List V} {s : Config V V} (h : Run (program zero f code) tr s) : s.crashed = false ∧ tr.length ≤ 1 := by
  obtain ⟨ts, hI⟩ := run_inv hs h
  refine ⟨hI.alive, ?_⟩
  obtain ⟨t, _, _, hr⟩ := hI.main
  rw [hr]
  split <;> omega

/-- C164: it does not deadlock: when no goroutine can go on, main has shown its result, all Mutexes are unlocked, and every goroutine has
ended or waits to send the result of a future that nobody awaited. -/
theorem C164_no_deadlock (rank : Nat → Nat) (zero : V) (f : Nat → V) {base : Nat} {code : Code V} (hs : code.Ok rank false base [] [])
    {tr : List V} {s : Config V V} (h : Run (program zero f code) tr s) : (∃ e t, Step s e t) ∨
    (tr.length = 1 ∧ (∀ m, s.locks m = false) ∧ ∀ p ∈ s.procs, p = .done ∨ ∃ c v, p = .parked c v (.close c .done)) := by
  obtain ⟨ts, hI⟩ := run_inv hs h
  by_cases hn : ∃ e s', Step s e s'
  · exact .inl hn
  · refine .inr ⟨(hI.stopped hn).1, fun m => ?_, fun p hp => ?_⟩
    · cases hl : s.locks m with
      | false => rfl
      | true =>
        obtain ⟨i, t, ht, hm⟩ := (hI.locked.iff m).1 hl
        rcases (hI.stopped hn).2 i t ht with h1 | ⟨⟨v, h1⟩, _⟩ <;> rw [h1] at hm <;> cases hm
    · rw [hI.procs, List.mem_map] at hp
      obtain ⟨t, ht, rfl⟩ := hp
      obtain ⟨i, hi⟩ := List.getElem?_of_mem ht
      rcases (hI.stopped hn).2 i t hi with h1 | ⟨⟨v, h1⟩, _⟩
      · exact .inl (by simp only [Task.proc, h1])
      · simp only [Task.proc, h1]
        cases t.chan with
        | none => exact .inl rfl
        | some c => exact .inr ⟨c, v, rfl⟩

/-- C164: if every task awaits all of its futures, all goroutines end. -/
theorem C164_all_end (rank : Nat → Nat) (zero : V) (f : Nat → V) {base : Nat} {code : Code V} (hs : code.Ok rank true base [] [])
    {tr : List V} {s : Config V V} (h : Run (program zero f code) tr s) :
    (∃ e t, Step s e t) ∨ (tr.length = 1 ∧ (∀ m, s.locks m = false) ∧ ∀ p ∈ s.procs, p = .done) := by
  obtain ⟨ts, hI⟩ := run_inv hs h
  by_cases hn : ∃ e s', Step s e s'
  · exact .inl hn
  · refine .inr ⟨(hI.stopped hn).1, fun m => ?_, fun p hp => ?_⟩
    · cases hl : s.locks m with
      | false => rfl
      | true =>
        obtain ⟨i, t, ht, hm⟩ := (hI.locked.iff m).1 hl
        rcases (hI.stopped hn).2 i t ht with h1 | ⟨_, h1⟩
        · rw [h1] at hm; cases hm
        · cases h1
    · rw [hI.procs, List.mem_map] at hp
      obtain ⟨t, ht, rfl⟩ := hp
      obtain ⟨i, hi⟩ := List.getElem?_of_mem ht
      rcases (hI.stopped hn).2 i t hi with h1 | ⟨_, h1⟩
      · simp only [Task.proc, h1]
      · cases h1

/-- C164: under every schedule it comes to an end. -/
theorem C164_terminates (rank : Nat → Nat) (zero : V) (f : Nat → V) {base : Nat} {code : Code V} (hs : code.Ok rank false base [] []) :
    Acc (fun t s : Config V V => ∃ e, Step s e t) (program zero f code) :=
  (initial f hs).acc

/-- A goroutine is about to read or write the variable `a`. -/
def Accesses (p : Proc V V) (a : Nat) : Prop := (∃ k, p = .load a k) ∨ ∃ v k, p = .store a v k

/-- C164: the value of a Mutex is used by one goroutine at a time. -/
theorem C164_exclusive (rank : Nat → Nat) (zero : V) (f : Nat → V) {base : Nat} {code : Code V} (hs : code.Ok rank false base [] [])
    {tr : List V} {s : Config V V} (h : Run (program zero f code) tr s) {i j a : Nat} {p q : Proc V V} (hp : s.procs[i]? = some p)
    (hq : s.procs[j]? = some q) (hpa : Accesses p a) (hqa : Accesses q a) : i = j := by
  obtain ⟨ts, hI⟩ := run_inv hs h
  have key : ∀ {i : Nat} {p : Proc V V}, s.procs[i]? = some p → Accesses p a → ∃ t, ts[i]? = some t ∧ a ∈ t.st.locks := by
    intro i p hp hpa
    obtain ⟨t, ht, w⟩ := get_proc hI hp
    have hok := hI.ok i t ht
    unfold Task.Ok at hok
    rcases hpa with ⟨k, rfl⟩ | ⟨v, k, rfl⟩
    · cases w with
      | load hst =>
        rw [hst] at hok
        exact ⟨t, ht, by rw [hst]; exact hok.1⟩
    · cases w with
      | store hst =>
        rw [hst] at hok
        exact ⟨t, ht, by rw [hst]; exact hok.1⟩
  obtain ⟨t, ht, h1⟩ := key hp hpa
  obtain ⟨u, hu, h2⟩ := key hq hqa
  exact hI.locked.once i j t u a ht hu h1 h2

namespace TaskLocks
theorem one {q p : Proc V V} {i : Nat} (h : [q][i]? = some p) : i = 0 ∧ p = q := by
  cases i with
  | zero => exact ⟨rfl, by simpa using h.symm⟩
  | succ i => simp at h

theorem two {q q' p : Proc V V} {i : Nat} (h : [q, q'][i]? = some p) : p = q ∨ p = q' := by
  have := List.mem_of_getElem? h
  simpa using this

theorem only_lock {m : Nat} {p : Proc V V} {ch : List (Chan V)} {L : Nat → Bool} {f : Nat → V} {e : Option V} {t : Config V V}
    (h : Step ⟨[.lock m p], ch, L, f, false⟩ e t) : e = none ∧ t = ⟨[p], ch, upd L m true, f, false⟩ := by
  cases h with
  | @lock i m k hc h hl =>
    obtain ⟨rfl, h⟩ := one h
    cases h
    exact ⟨rfl, rfl⟩
  | sendBuf hc h => rcases h with h | h <;> cases (one h).2
  | sendClosed hc h => rcases h with h | h <;> cases (one h).2
  | meet hc h => rcases h with h | h <;> cases (one h).2
  | meetPoll hc h => rcases h with h | h <;> cases (one h).2
  | emit hc h => cases (one h).2
  | tau hc h => cases (one h).2
  | go hc h => cases (one h).2
  | make hc h => cases (one h).2
  | park hc h => cases (one h).2
  | recvBuf hc h => cases (one h).2
  | pollBuf hc h => cases (one h).2
  | recvClosed hc h => cases (one h).2
  | pollClosed hc h => cases (one h).2
  | pollDefault hc h => cases (one h).2
  | close hc h => cases (one h).2
  | closeClosed hc h => cases (one h).2
  | tryLock hc h => cases (one h).2
  | tryLockFails hc h => cases (one h).2
  | unlock hc h => cases (one h).2
  | unlockFree hc h => cases (one h).2
  | load hc h => cases (one h).2
  | store hc h => cases (one h).2

theorem only_make {k : Nat → Proc V V} {ch : List (Chan V)} {L : Nat → Bool} {f : Nat → V} {e : Option V} {t : Config V V}
    (h : Step ⟨[.make 0 k], ch, L, f, false⟩ e t) : e = none ∧ t = ⟨[k ch.length], ch ++ [⟨0, [], false⟩], L, f, false⟩ := by
  cases h with
  | make hc h =>
    obtain ⟨rfl, h⟩ := one h
    cases h
    exact ⟨rfl, rfl⟩
  | sendBuf hc h => rcases h with h | h <;> cases (one h).2
  | sendClosed hc h => rcases h with h | h <;> cases (one h).2
  | meet hc h => rcases h with h | h <;> cases (one h).2
  | meetPoll hc h => rcases h with h | h <;> cases (one h).2
  | emit hc h => cases (one h).2
  | tau hc h => cases (one h).2
  | go hc h => cases (one h).2
  | park hc h => cases (one h).2
  | recvBuf hc h => cases (one h).2
  | pollBuf hc h => cases (one h).2
  | recvClosed hc h => cases (one h).2
  | pollClosed hc h => cases (one h).2
  | pollDefault hc h => cases (one h).2
  | close hc h => cases (one h).2
  | closeClosed hc h => cases (one h).2
  | lock hc h => cases (one h).2
  | tryLock hc h => cases (one h).2
  | tryLockFails hc h => cases (one h).2
  | unlock hc h => cases (one h).2
  | unlockFree hc h => cases (one h).2
  | load hc h => cases (one h).2
  | store hc h => cases (one h).2

theorem only_go {p q : Proc V V} {ch : List (Chan V)} {L : Nat → Bool} {f : Nat → V} {e : Option V} {t : Config V V}
    (h : Step ⟨[.go p q], ch, L, f, false⟩ e t) : e = none ∧ t = ⟨[q, p], ch, L, f, false⟩ := by
  cases h with
  | go hc h =>
    obtain ⟨rfl, h⟩ := one h
    cases h
    exact ⟨rfl, rfl⟩
  | sendBuf hc h => rcases h with h | h <;> cases (one h).2
  | sendClosed hc h => rcases h with h | h <;> cases (one h).2
  | meet hc h => rcases h with h | h <;> cases (one h).2
  | meetPoll hc h => rcases h with h | h <;> cases (one h).2
  | emit hc h => cases (one h).2
  | tau hc h => cases (one h).2
  | make hc h => cases (one h).2
  | park hc h => cases (one h).2
  | recvBuf hc h => cases (one h).2
  | pollBuf hc h => cases (one h).2
  | recvClosed hc h => cases (one h).2
  | pollClosed hc h => cases (one h).2
  | pollDefault hc h => cases (one h).2
  | close hc h => cases (one h).2
  | closeClosed hc h => cases (one h).2
  | lock hc h => cases (one h).2
  | tryLock hc h => cases (one h).2
  | tryLockFails hc h => cases (one h).2
  | unlock hc h => cases (one h).2
  | unlockFree hc h => cases (one h).2
  | load hc h => cases (one h).2
  | store hc h => cases (one h).2

theorem stuck {k : Option V → Proc V V} {m : Nat} {q : Proc V V} {L : Nat → Bool} {f : Nat → V} (hL : L m = true) {e : Option V}
    {t : Config V V} : ¬ Step ⟨[.recv 0 k, .lock m q], [⟨0, [], false⟩], L, f, false⟩ e t := by
  intro h
  cases h with
  | sendBuf hc h => rcases h with h | h <;> rcases two h with h | h <;> cases h
  | sendClosed hc h => rcases h with h | h <;> rcases two h with h | h <;> cases h
  | meet hc h => rcases h with h | h <;> rcases two h with h | h <;> cases h
  | meetPoll hc h => rcases h with h | h <;> rcases two h with h | h <;> cases h
  | recvBuf hc h hch hb =>
    rcases two h with h | h <;> cases h
    cases hch
    cases hb
  | recvClosed hc h hch hcl =>
    rcases two h with h | h <;> cases h
    cases hch
    cases hcl
  | @lock i m k hc h hl =>
    rcases two h with h | h <;> cases h
    simp only [hL] at hl
    cases hl
  | emit hc h => rcases two h with h | h <;> cases h
  | tau hc h => rcases two h with h | h <;> cases h
  | go hc h => rcases two h with h | h <;> cases h
  | make hc h => rcases two h with h | h <;> cases h
  | park hc h => rcases two h with h | h <;> cases h
  | pollBuf hc h => rcases two h with h | h <;> cases h
  | pollClosed hc h => rcases two h with h | h <;> cases h
  | pollDefault hc h => rcases two h with h | h <;> cases h
  | close hc h => rcases two h with h | h <;> cases h
  | closeClosed hc h => rcases two h with h | h <;> cases h
  | tryLock hc h => rcases two h with h | h <;> cases h
  | tryLockFails hc h => rcases two h with h | h <;> cases h
  | unlock hc h => rcases two h with h | h <;> cases h
  | unlockFree hc h => rcases two h with h | h <;> cases h
  | load hc h => rcases two h with h | h <;> cases h
  | store hc h => rcases two h with h | h <;> cases h

theorem await_locked {f : Nat → V} {m : Nat} (q : Nat → Proc V V) (k : Nat → Option V → Proc V V) {tr : List V} {s : Config V V}
    (h : Run ⟨[.lock m (.make 0 fun c => .go (.lock m (q c)) (.recv c (k c)))], [], fun _ => false, f, false⟩ tr s) :
    tr = [] ∧ ((∀ e t, ¬ Step s e t) → s.locks m = true ∧ s.procs.length = 2 ∧ ∀ p ∈ s.procs, p ≠ .done) ∧
    ∃ t, Run s [] t ∧ ∀ e u, ¬ Step t e u := by
  have hL : upd (fun _ => false) m true m = true := by simp [upd]
  have st0 : Step (E := V) ⟨[.lock m (.make 0 fun c => .go (.lock m (q c)) (.recv c (k c)))], [], fun _ => false, f, false⟩ none
      ⟨[.make 0 fun c => .go (.lock m (q c)) (.recv c (k c))], [], upd (fun _ => false) m true, f, false⟩ :=
    .lock (i := 0) rfl rfl rfl
  have st1 : Step (E := V) ⟨[.make 0 fun c => .go (.lock m (q c)) (.recv c (k c))], [], upd (fun _ => false) m true, f, false⟩ none
      ⟨[.go (.lock m (q 0)) (.recv 0 (k 0))], [⟨0, [], false⟩], upd (fun _ => false) m true, f, false⟩ :=
    Step.make (i := 0) (cap := 0) (k := fun c => .go (.lock m (q c)) (.recv c (k c)))
      (s := ⟨[.make 0 fun c => .go (.lock m (q c)) (.recv c (k c))], [], upd (fun _ => false) m true, f, false⟩) rfl rfl
  have st2 : Step (E := V) ⟨[.go (.lock m (q 0)) (.recv 0 (k 0))], [⟨0, [], false⟩], upd (fun _ => false) m true, f, false⟩ none
      ⟨[.recv 0 (k 0), .lock m (q 0)], [⟨0, [], false⟩], upd (fun _ => false) m true, f, false⟩ :=
    Step.go (i := 0) (s := ⟨[.go (.lock m (q 0)) (.recv 0 (k 0))], [⟨0, [], false⟩], upd (fun _ => false) m true, f, false⟩) rfl rfl
  have key : tr = [] ∧ (s = ⟨[.lock m (.make 0 fun c => .go (.lock m (q c)) (.recv c (k c)))], [], fun _ => false, f, false⟩ ∨
      s = ⟨[.make 0 fun c => .go (.lock m (q c)) (.recv c (k c))], [], upd (fun _ => false) m true, f, false⟩ ∨
      s = ⟨[.go (.lock m (q 0)) (.recv 0 (k 0))], [⟨0, [], false⟩], upd (fun _ => false) m true, f, false⟩ ∨
      s = ⟨[.recv 0 (k 0), .lock m (q 0)], [⟨0, [], false⟩], upd (fun _ => false) m true, f, false⟩) := by
    induction h with
    | nil => exact ⟨rfl, .inl rfl⟩
    | step _ st ih =>
      obtain ⟨rfl, rfl | rfl | rfl | rfl⟩ := ih
      · obtain ⟨rfl, rfl⟩ := only_lock st; exact ⟨rfl, .inr (.inl rfl)⟩
      · obtain ⟨rfl, rfl⟩ := only_make st; exact ⟨rfl, .inr (.inr (.inl rfl))⟩
      · obtain ⟨rfl, rfl⟩ := only_go st; exact ⟨rfl, .inr (.inr (.inr rfl))⟩
      · exact absurd st (stuck hL)
  have r2 := Run.one st2
  have r1 := (Run.one st1).trans r2
  have r0 := (Run.one st0).trans r1
  obtain ⟨rfl, rfl | rfl | rfl | rfl⟩ := key
  · exact ⟨rfl, fun hn => absurd st0 (hn _ _), _, r0, fun e u => stuck hL⟩
  · exact ⟨rfl, fun hn => absurd st1 (hn _ _), _, r1, fun e u => stuck hL⟩
  · exact ⟨rfl, fun hn => absurd st2 (hn _ _), _, r2, fun e u => stuck hL⟩
  · exact ⟨rfl, fun _ => ⟨hL, rfl, by simp⟩, _, .nil _, fun e u => stuck hL⟩
end TaskLocks

/-- C164, the discipline matters: a task that holds a Mutex and awaits a task that locks the same Mutex waits for ever, whatever the
schedule: no result is ever shown, and the program always gets to a state in which nothing can happen. -/
theorem C164_await_locked (zero : V) (f : Nat → V) (m : Nat) (child : Code V) (r : V → Code V) {tr : List V} {s : Config V V}
    (h : Run (program zero f (.lock m (.spawn (.lock m child) (.await 0 r)))) tr s) :
    tr = [] ∧ ((∀ e t, ¬ Step s e t) → s.locks m = true ∧ s.procs.length = 2 ∧ ∀ p ∈ s.procs, p ≠ .done) ∧
    ∃ t, Run s [] t ∧ ∀ e u, ¬ Step t e u := by
  have e0 : program zero f (.lock m (.spawn (.lock m child) (.await 0 r))) =
      ⟨[.lock m (.make 0 fun c => .go (.lock m (child.proc zero id [] fun v => .send c v (.close c .done)))
        (.recv c fun x => (r (x.getD zero)).proc zero id [] fun v => .emit v .done))], [], fun _ => false, f, false⟩ := by
    simp only [program, start, Code.proc, Gokio.spawn, Gokio.await, Mutex.lock_, mutex, Mutex.new, upd_id]
    rfl
  rw [e0] at h
  exact await_locked (fun c => child.proc zero id [] fun v => .send c v (.close c .done))
    (fun _ x => (r (x.getD zero)).proc zero id [] fun v => .emit v .done) h

/-! ### Programs that keep to the discipline -/

/-- Count a call in the Mutex 0. -/
def counted (k : Code Nat) : Code Nat := .lock 0 (.get 0 fun c => .put 0 (c + 1) (.unlock 0 k))
/-- Fibonacci numbers, a task for each call; all tasks count themselves in one Mutex. -/
def fibCounted : Nat → Code Nat
  | 0 => counted (.ret 0)
  | 1 => counted (.ret 1)
  | n + 2 => counted (.spawn (fibCounted n) (.spawn (fibCounted (n + 1)) (.await 1 fun a => .await 0 fun b => .ret (a + b))))
theorem fibCounted_ok (rank : Nat → Nat) (all : Bool) : ∀ n, (fibCounted n).Ok rank all 0 [] []
  | 0 => ⟨Nat.zero_le _, by simp, by simp, fun _ => ⟨by simp, by simp, by simp [Code.Ok]⟩⟩
  | 1 => ⟨Nat.zero_le _, by simp, by simp, fun _ => ⟨by simp, by simp, by simp [Code.Ok]⟩⟩
  | n + 2 => by
    refine ⟨Nat.zero_le _, by simp, by simp, fun _ => ⟨by simp, by simp, 0, fibCounted_ok rank all n, 0, fibCounted_ok rank all (n + 1), 0, ?_⟩⟩
    simp [Code.Ok]

/-- C164: so the tasks computing a Fibonacci number and counting themselves all end, with the Mutex unlocked, under every schedule. -/
theorem C164_fib (n : Nat) {tr : List Nat} {s : Config Nat Nat} (h : Run (program 0 (fun _ => 0) (fibCounted n)) tr s) :
    s.crashed = false ∧ ((∃ e t, Step s e t) ∨ (tr.length = 1 ∧ (∀ m, s.locks m = false) ∧ ∀ p ∈ s.procs, p = .done)) :=
  ⟨(C164_safe id 0 _ (fibCounted_ok id false n) h).1, C164_all_end id 0 _ (fibCounted_ok id true n) h⟩

-- a task may hold a Mutex while it awaits a task that uses Mutexes of higher ranks only
example : (Code.lock 0 (.spawn (.lock 1 (.get 1 fun v => .unlock 1 (.ret v))) (.await 0 fun v => .put 0 v (.unlock 0 (.ret v)))) : Code Nat).Ok
    id true 0 [] [] := by
  simp only [Code.Ok]
  exact ⟨by decide, by simp, 1, by simp, 1, by simp⟩
-- but not one that uses the same
example : ¬ ∃ rank base, (Code.lock 0 (.spawn (.lock 0 (.unlock 0 (.ret 1))) (.await 0 fun v => .unlock 0 (.ret v))) : Code Nat).Ok
    rank true base [] [] := by
  rintro ⟨rank, base, h⟩
  simp only [Code.Ok] at h
  obtain ⟨_, _, l, ⟨h1, _⟩, l', h2, _, h3, _⟩ := h
  simp at h2 h3
  omega

end Gost
