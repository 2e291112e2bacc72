import Verif.Model.Thread
/-
Property C154: gokio tasks that spawn tasks, await them in any order and go on depending on the results.
-/
namespace Gost
open Conc
namespace TaskTree
variable {V : Type}

/-! ### Programs -/

/-- The body of a task: return a value; spawn a task with the given body, whose future is put at the end of the futures held;
await the `i`-th of the futures held, which gives it up. -/
inductive Code (V : Type) where
  | ret (v : V)
  | spawn (child k : Code V)
  | await (i : Nat) (k : V → Code V)

/-- The body as a Go function; `hs` are the futures held, `k` is what becomes of the result.  An Await of a future that the task
does not hold cannot be written (`Code.Scoped`). -/
def Code.proc (zero : V) : Code V → List Gokio.Future → (V → Proc V V) → Proc V V
  | .ret v, _, k => k v
  | .spawn child r, hs, k => Gokio.spawn (fun ret => child.proc zero [] ret) fun h => r.proc zero (hs ++ [h]) k
  | .await i r, hs, k => match hs[i]? with
    | some h => Gokio.await zero h fun v => (r v).proc zero (hs.eraseIdx i) k
    | none => .done

/-- main executes the body and shows its result. -/
def program (zero : V) (code : Code V) : Config V V := start (fun _ => zero) (code.proc zero [] fun v => .emit v .done)

/-! ### Specification -/

/-- The value of a body when every spawned body is simply executed at once; `env` are the results of the futures held. -/
def Code.value (zero : V) : Code V → List V → V
  | .ret v, _ => v
  | .spawn child r, env => r.value zero (env ++ [child.value zero []])
  | .await i r, env => (r (env[i]?.getD zero)).value zero (env.eraseIdx i)

/-- The body awaits futures it holds only, the number of which is `n`; with `all`, it awaits every future before it returns. -/
def Code.Scoped (all : Bool) : Code V → Nat → Prop
  | .ret _, n => all = true → n = 0
  | .spawn child r, n => child.Scoped all 0 ∧ r.Scoped all (n + 1)
  | .await i r, n => i < n ∧ ∀ v, (r v).Scoped all (n - 1)

/-! ### Tasks and configurations -/

/-- The number of steps. -/
def Code.cost (zero : V) : Code V → List V → Nat
  | .ret _, _ => 3
  | .spawn child r, env => 2 + child.cost zero [] + r.cost zero (env ++ [child.value zero []])
  | .await i r, env => 1 + (r (env[i]?.getD zero)).cost zero (env.eraseIdx i)

inductive TaskSt (V : Type) where
  | run (code : Code V) (env : List (Nat × V))
  | going (child k : Code V) (c : Nat) (env : List (Nat × V))
  | parked
  | closing
  | over

/-- A goroutine: its channel (main has none), the value it will give, and where it is. -/
structure Task (V : Type) where
  chan : Option Nat
  res : V
  st : TaskSt V

/-- What becomes of the result. -/
def finish : Option Nat → V → Proc V V
  | none, v => .emit v .done
  | some c, v => .send c v (.close c .done)

def futures (env : List (Nat × V)) : List Gokio.Future := env.map fun e => ⟨e.1⟩

def Task.proc (zero : V) (t : Task V) : Proc V V :=
  match t.st with
  | .run code env => code.proc zero (futures env) (finish t.chan)
  | .going child r c env => .go (child.proc zero [] (finish (some c))) (r.proc zero (futures env ++ [⟨c⟩]) (finish t.chan))
  | .parked => match t.chan with
    | some c => .parked c t.res (.close c .done)
    | none => .done
  | .closing => match t.chan with
    | some c => .close c .done
    | none => .done
  | .over => .done

/-- The futures a task holds. -/
def TaskSt.env : TaskSt V → List (Nat × V)
  | .run _ env => env
  | .going _ _ _ env => env
  | _ => []

def TaskSt.sent : TaskSt V → Bool
  | .closing => true
  | .over => true
  | _ => false

/-- What is known about a single task. -/
def Task.Ok (zero : V) (all : Bool) (t : Task V) : Prop :=
  match t.st with
  | .run code env => code.value zero (env.map Prod.snd) = t.res ∧ code.Scoped all env.length
  | .going child r _ env => r.value zero (env.map Prod.snd ++ [child.value zero []]) = t.res ∧ child.Scoped all 0 ∧
      r.Scoped all (env.length + 1)
  | .over => True
  | _ => t.chan.isSome = true

def Task.weight (zero : V) (t : Task V) : Nat :=
  match t.st with
  | .run code env => code.cost zero (env.map Prod.snd)
  | .going child r _ env => 1 + child.cost zero [] + r.cost zero (env.map Prod.snd ++ [child.value zero []])
  | .parked => 2
  | .closing => 1
  | .over => 0

/-- The channel made for a task that has not been started. -/
def TaskSt.fresh : TaskSt V → Option Nat
  | .going _ _ c _ => some c
  | _ => none

structure Inv (zero : V) (all : Bool) (code : Code V) (ts : List (Task V)) (s : Config V V) (tr : List V) : Prop where
  procs : s.procs = ts.map (Task.proc zero)
  alive : s.crashed = false
  ok : ∀ (i : Nat) t, ts[i]? = some t → t.Ok zero all
  chans : ∀ (c : Nat) ch, s.chans[c]? = some ch → ch.cap = 0 ∧ ch.buf = [] ∧
    (ch.closed = true → ∃ (i : Nat) (t : Task V), ts[i]? = some t ∧ t.chan = some c ∧ t.st = .over)
  inRange : ∀ (i : Nat) t c, ts[i]? = some t → t.chan = some c ∨ t.st.fresh = some c → c < s.chans.length
  unique : ∀ (i j : Nat) t u c, ts[i]? = some t → ts[j]? = some u → t.chan = some c → u.chan = some c → i = j
  freshChan : ∀ (i j : Nat) t u c, ts[i]? = some t → ts[j]? = some u → t.st.fresh = some c → u.chan ≠ some c
  freshOnce : ∀ (i j : Nat) t u c, ts[i]? = some t → ts[j]? = some u → t.st.fresh = some c → u.st.fresh = some c → i = j
  nodup : ∀ (i : Nat) t, ts[i]? = some t → (t.st.env.map Prod.fst).Nodup
  held : ∀ (i j : Nat) t u c, ts[i]? = some t → ts[j]? = some u → c ∈ t.st.env.map Prod.fst → c ∈ u.st.env.map Prod.fst → i = j
  owner : ∀ (i : Nat) t e, ts[i]? = some t → e ∈ t.st.env →
    ∃ (j : Nat) (u : Task V), i < j ∧ ts[j]? = some u ∧ u.chan = some e.1 ∧ u.res = e.2 ∧ u.st.sent = false
  holder : all = true → ∀ (j : Nat) u c, ts[j]? = some u → u.chan = some c → u.st.sent = false →
    ∃ (i : Nat) (t : Task V), ts[i]? = some t ∧ c ∈ t.st.env.map Prod.fst
  main : ∃ t, ts[0]? = some t ∧ t.chan = none ∧ t.res = code.value zero [] ∧ tr = if t.st.sent then [t.res] else []
  others : ∀ (i : Nat) t, ts[i]? = some t → t.chan = none → i = 0

/-! ### What a goroutine executes -/

inductive Who (zero : V) (t : Task V) : Proc V V → Prop
  | done : Who zero t .done
  | emit {v env} (h : t.st = .run (.ret v) env) (hc : t.chan = none) : Who zero t (.emit v .done)
  | send {v env c} (h : t.st = .run (.ret v) env) (hc : t.chan = some c) : Who zero t (.send c v (.close c .done))
  | make {child r env} (h : t.st = .run (.spawn child r) env) : Who zero t
      (.make 0 fun c => .go (child.proc zero [] (finish (some c))) (r.proc zero (futures env ++ [⟨c⟩]) (finish t.chan)))
  | recv {i r env} {e : Nat × V} (h : t.st = .run (.await i r) env) (he : env[i]? = some e) : Who zero t
      (.recv e.1 fun x => (r (x.getD zero)).proc zero (futures (env.eraseIdx i)) (finish t.chan))
  | go {child r c env} (h : t.st = .going child r c env) : Who zero t
      (.go (child.proc zero [] (finish (some c))) (r.proc zero (futures env ++ [⟨c⟩]) (finish t.chan)))
  | parked {c} (h : t.st = .parked) (hc : t.chan = some c) : Who zero t (.parked c t.res (.close c .done))
  | close {c} (h : t.st = .closing) (hc : t.chan = some c) : Who zero t (.close c .done)

theorem eraseIdx_map {β γ : Type} (g : β → γ) (l : List β) (i : Nat) : (l.map g).eraseIdx i = (l.eraseIdx i).map g := by
  induction l generalizing i with
  | nil => rfl
  | cons a l ih => cases i with
    | zero => rfl
    | succ i => simp only [List.map_cons, List.eraseIdx_cons_succ, ih]

theorem not_mem_eraseIdx {β : Type} {l : List β} (h : l.Nodup) {n : Nat} {a : β} (ha : l[n]? = some a) : a ∉ l.eraseIdx n := by
  induction l generalizing n with
  | nil => simp
  | cons b l ih =>
    rw [List.nodup_cons] at h
    cases n with
    | zero =>
      simp only [List.getElem?_cons_zero, Option.some.injEq] at ha
      subst ha
      exact h.1
    | succ n =>
      simp only [List.getElem?_cons_succ] at ha
      rw [List.eraseIdx_cons_succ, List.mem_cons]
      rintro (rfl | h2)
      · exact h.1 (List.mem_of_getElem? ha)
      · exact ih h.2 ha h2

theorem who (zero : V) (t : Task V) : Who zero t (t.proc zero) := by
  unfold Task.proc
  cases h : t.st with
  | run code env =>
    cases code with
    | ret v =>
      cases hc : t.chan with
      | none => exact .emit h hc
      | some c => exact .send h hc
    | spawn child r => exact .make h
    | await i r =>
      simp only [Code.proc]
      cases he : env[i]? with
      | none => simp only [futures, List.getElem?_map, he, Option.map_none]; exact .done
      | some e =>
        simp only [futures, List.getElem?_map, he, Option.map_some, Gokio.await]
        rw [eraseIdx_map]
        exact .recv h he
  | going child r c env => exact .go h
  | parked =>
    cases hc : t.chan with
    | none => exact .done
    | some c => exact .parked h hc
  | closing =>
    cases hc : t.chan with
    | none => exact .done
    | some c => exact .close h hc
  | over => exact .done

theorem get_proc {zero : V} {all : Bool} {code : Code V} {ts : List (Task V)} {s : Config V V} {tr : List V}
    (hI : Inv zero all code ts s tr) {i : Nat} {p : Proc V V} (h : s.procs[i]? = some p) :
    ∃ t, ts[i]? = some t ∧ Who zero t p := by
  rw [hI.procs, List.getElem?_map, Option.map_eq_some_iff] at h
  obtain ⟨t, ht, rfl⟩ := h
  exact ⟨t, ht, who zero t⟩

theorem get_set {ts : List (Task V)} {i k : Nat} {t' u : Task V} (hk : (ts.set i t')[k]? = some u) :
    (k = i ∧ u = t') ∨ (k ≠ i ∧ ts[k]? = some u) := by
  rw [List.getElem?_set] at hk
  by_cases h : i = k
  · subst h
    rw [if_pos rfl] at hk
    split at hk
    · exact .inl ⟨rfl, by simpa using hk.symm⟩
    · cases hk
  · rw [if_neg h] at hk
    exact .inr ⟨fun e => h e.symm, hk⟩

theorem set_get {ts : List (Task V)} {i : Nat} {t t' : Task V} (h : ts[i]? = some t) : (ts.set i t')[i]? = some t' := by
  rw [List.getElem?_set, if_pos rfl, if_pos (List.getElem?_eq_some_iff.1 h).1]

theorem set_ne {ts : List (Task V)} {i k : Nat} {t' u : Task V} (h : ts[k]? = some u) (hne : k ≠ i) :
    (ts.set i t')[k]? = some u := by
  rw [List.getElem?_set, if_neg (fun e => hne e.symm), h]

theorem sum_set (zero : V) {ts : List (Task V)} {i : Nat} {t t' : Task V} (h : ts[i]? = some t) :
    ((ts.set i t').map (Task.weight zero)).sum + t.weight zero = (ts.map (Task.weight zero)).sum + t'.weight zero := by
  induction ts generalizing i with
  | nil => simp at h
  | cons a ts ih =>
    cases i with
    | zero =>
      simp only [List.getElem?_cons_zero, Option.some.injEq] at h
      subst h
      simp only [List.set_cons_zero, List.map_cons, List.sum_cons]
      omega
    | succ i =>
      simp only [List.getElem?_cons_succ] at h
      have := ih h
      simp only [List.set_cons_succ, List.map_cons, List.sum_cons]
      omega

/-! ### Steps keep the invariant -/

section
variable {zero : V} {all : Bool} {code : Code V} {ts ts' : List (Task V)} {s s' : Config V V} {tr tr' : List V}

/-- What a step without `go` must satisfy: channels and results of the tasks stay, futures are only given up, at most one channel
is made. -/
theorem Inv.moved (hI : Inv zero all code ts s tr) (i : Nat)
    (hstat : ∀ k : Nat, (ts'[k]?).map (fun t => (t.chan, t.res)) = (ts[k]?).map (fun t => (t.chan, t.res)))
    (henv : ∀ (k : Nat) u u', ts[k]? = some u → ts'[k]? = some u' → u'.st.env.Sublist u.st.env)
    (hfresh : ∀ (k : Nat) u' c, ts'[k]? = some u' → u'.st.fresh = some c →
      (∃ u, ts[k]? = some u ∧ u.st.fresh = some c) ∨ (c = s.chans.length ∧ k = i ∧ s.chans.length < s'.chans.length))
    (hlen : s.chans.length ≤ s'.chans.length)
    (procs : s'.procs = ts'.map (Task.proc zero)) (alive : s'.crashed = false)
    (ok : ∀ (k : Nat) u', ts'[k]? = some u' → u'.Ok zero all)
    (chans : ∀ (c : Nat) ch, s'.chans[c]? = some ch → ch.cap = 0 ∧ ch.buf = [] ∧
      (ch.closed = true → ∃ (i : Nat) (t : Task V), ts'[i]? = some t ∧ t.chan = some c ∧ t.st = .over))
    (unsent : ∀ (k : Nat) u' e, ts'[k]? = some u' → e ∈ u'.st.env → ∀ (j : Nat) u u2, ts[j]? = some u → ts'[j]? = some u2 →
      u.chan = some e.1 → u.st.sent = false → u2.st.sent = false)
    (holder : all = true → ∀ (j : Nat) u c, ts'[j]? = some u → u.chan = some c → u.st.sent = false →
      ∃ (i : Nat) (t : Task V), ts'[i]? = some t ∧ c ∈ t.st.env.map Prod.fst)
    (main : ∀ t t', ts[0]? = some t → ts'[0]? = some t' → t.chan = none → t'.res = t.res → tr = (if t.st.sent then [t.res] else []) →
      tr' = if t'.st.sent then [t.res] else []) : Inv zero all code ts' s' tr' := by
  have old : ∀ {k : Nat} {u' : Task V}, ts'[k]? = some u' → ∃ u, ts[k]? = some u ∧ u'.chan = u.chan ∧ u'.res = u.res := by
    intro k u' h
    have := hstat k
    rw [h] at this
    cases hu : ts[k]? with
    | none => rw [hu] at this; cases this
    | some u =>
      rw [hu] at this
      simp only [Option.map_some, Option.some.injEq, Prod.mk.injEq] at this
      exact ⟨u, rfl, this⟩
  have new : ∀ {k : Nat} {u : Task V}, ts[k]? = some u → ∃ u', ts'[k]? = some u' ∧ u'.chan = u.chan ∧ u'.res = u.res := by
    intro k u h
    have := hstat k
    rw [h] at this
    cases hu : ts'[k]? with
    | none => rw [hu] at this; cases this
    | some u =>
      rw [hu] at this
      simp only [Option.map_some, Option.some.injEq, Prod.mk.injEq] at this
      exact ⟨u, rfl, this⟩
  have sub : ∀ {k : Nat} {u' : Task V} {c : Nat}, ts'[k]? = some u' → c ∈ u'.st.env.map Prod.fst →
      ∃ u, ts[k]? = some u ∧ c ∈ u.st.env.map Prod.fst := by
    intro k u' c h hc
    obtain ⟨u, hu, _⟩ := old h
    exact ⟨u, hu, ((henv k u u' hu h).map _).subset hc⟩
  refine ⟨procs, alive, ok, chans, ?_, ?_, ?_, ?_, ?_, ?_, ?_, holder, ?_, ?_⟩
  · intro k u' c hk h
    rcases h with h | h
    · obtain ⟨u, hu, h1, _⟩ := old hk
      exact Nat.lt_of_lt_of_le (hI.inRange k u c hu (.inl (h1 ▸ h))) hlen
    · rcases hfresh k u' c hk h with ⟨u, hu, h1⟩ | ⟨rfl, _, h1⟩
      · exact Nat.lt_of_lt_of_le (hI.inRange k u c hu (.inr h1)) hlen
      · exact h1
  · intro a b t u c ha hb hc hd
    obtain ⟨t0, h1, h2, _⟩ := old ha
    obtain ⟨u0, h3, h4, _⟩ := old hb
    exact hI.unique a b t0 u0 c h1 h3 (h2 ▸ hc) (h4 ▸ hd)
  · intro a b t u c ha hb hc hd
    obtain ⟨u0, h3, h4, _⟩ := old hb
    rcases hfresh a t c ha hc with ⟨t0, h1, h2⟩ | ⟨rfl, _, _⟩
    · exact hI.freshChan a b t0 u0 c h1 h3 h2 (h4 ▸ hd)
    · exact absurd (hI.inRange b u0 _ h3 (.inl (h4 ▸ hd))) (by omega)
  · intro a b t u c ha hb hc hd
    rcases hfresh a t c ha hc with ⟨t0, h1, h2⟩ | ⟨e1, h1, _⟩ <;> rcases hfresh b u c hb hd with ⟨u0, h3, h4⟩ | ⟨e2, h3, _⟩
    · exact hI.freshOnce a b t0 u0 c h1 h3 h2 h4
    · exact absurd (hI.inRange a t0 c h1 (.inr h2)) (by omega)
    · exact absurd (hI.inRange b u0 c h3 (.inr h4)) (by omega)
    · rw [h1, h3]
  · intro k u' hk
    obtain ⟨u, hu, _⟩ := old hk
    exact ((henv k u u' hu hk).map _).nodup (hI.nodup k u hu)
  · intro a b t u c ha hb hc hd
    obtain ⟨t0, h1, h2⟩ := sub ha hc
    obtain ⟨u0, h3, h4⟩ := sub hb hd
    exact hI.held a b t0 u0 c h1 h3 h2 h4
  · intro k u' e hk he
    obtain ⟨u, hu, _⟩ := old hk
    obtain ⟨j, w, h1, h2, h3, h4, h5⟩ := hI.owner k u e hu ((henv k u u' hu hk).subset he)
    obtain ⟨w', h6, h7, h8⟩ := new h2
    exact ⟨j, w', h1, h6, h7.trans h3, h8.trans h4, unsent k u' e hk he j w w' h2 h6 h3 h5⟩
  · obtain ⟨t, h1, h2, h3, h4⟩ := hI.main
    obtain ⟨t', h5, h6, h7⟩ := new h1
    exact ⟨t', h5, h6.trans h2, h7.trans h3, by rw [h7]; exact main t t' h1 h5 h2 h7 h4⟩
  · intro k u' hk hc
    obtain ⟨u, hu, h1, _⟩ := old hk
    exact hI.others k u hu (h1 ▸ hc)

theorem stat_set {i : Nat} {t : Task V} {st : TaskSt V} (ht : ts[i]? = some t) (k : Nat) :
    ((ts.set i ⟨t.chan, t.res, st⟩)[k]?).map (fun t => (t.chan, t.res)) = (ts[k]?).map (fun t => (t.chan, t.res)) := by
  by_cases h : k = i
  · subst h
    rw [set_get ht, ht]
    rfl
  · rw [List.getElem?_set, if_neg (fun e => h e.symm)]

/-- A single task moves, without making a channel; the events are given. -/
theorem Inv.one (hI : Inv zero all code ts s tr) {i : Nat} {t : Task V} {st : TaskSt V} (ht : ts[i]? = some t)
    (henv : st.env.Sublist t.st.env) (hall : all = true → t.st.env = st.env)
    (hfresh : ∀ c, st.fresh = some c → c = s.chans.length ∧ s.chans.length < s'.chans.length)
    (hlen : s.chans.length ≤ s'.chans.length)
    (procs : s'.procs = s.procs.set i ((Task.mk t.chan t.res st).proc zero)) (alive : s'.crashed = false)
    (ok : (Task.mk t.chan t.res st).Ok zero all)
    (chans : ∀ (c : Nat) ch, s'.chans[c]? = some ch → ch.cap = 0 ∧ ch.buf = [] ∧
      (ch.closed = true → (∃ ch', s.chans[c]? = some ch' ∧ ch'.closed = true) ∨ (t.chan = some c ∧ st = .over)))
    (hover : t.st ≠ .over) (hsent : t.st.sent = false → st.sent = false ∨ t.chan = none)
    (hsent' : t.st.sent = true → st.sent = true)
    (main : t.chan = none → t.st.sent = false → tr' = tr ++ if st.sent then [t.res] else []) (hother : t.chan ≠ none → tr' = tr) :
    Inv zero all code (ts.set i ⟨t.chan, t.res, st⟩) s' tr' := by
  refine hI.moved i (stat_set ht) ?_ ?_ hlen ?_ alive ?_ ?_ ?_ ?_ ?_
  · intro k u u' hk hk'
    rcases get_set hk' with ⟨rfl, rfl⟩ | ⟨_, h⟩
    · rw [ht] at hk; cases hk; exact henv
    · rw [hk] at h; cases h; exact List.Sublist.refl _
  · intro k u' c hk hc
    rcases get_set hk with ⟨rfl, rfl⟩ | ⟨_, h⟩
    · exact .inr ⟨(hfresh c hc).1, rfl, (hfresh c hc).2⟩
    · exact .inl ⟨u', h, hc⟩
  · rw [procs, hI.procs, List.map_set]
  · intro k u' hk
    rcases get_set hk with ⟨rfl, rfl⟩ | ⟨_, h⟩
    · exact ok
    · exact hI.ok k u' h
  · intro c ch hch
    obtain ⟨h1, h2, h3⟩ := chans c ch hch
    refine ⟨h1, h2, fun hcl => ?_⟩
    rcases h3 hcl with ⟨ch', h4, h5⟩ | ⟨h4, h5⟩
    · obtain ⟨k, u, hk, h6, h7⟩ := (hI.chans c ch' h4).2.2 h5
      have hki : k ≠ i := by
        rintro rfl
        rw [ht] at hk
        cases hk
        exact hover h7
      exact ⟨k, u, set_ne hk hki, h6, h7⟩
    · exact ⟨i, _, set_get ht, h4, h5⟩
  · intro k u' e hk he j u u2 hu hu2 hc hs
    rcases get_set hu2 with ⟨rfl, rfl⟩ | ⟨_, h⟩
    · rw [ht] at hu
      cases hu
      rcases hsent hs with h | h
      · exact h
      · rw [h] at hc; cases hc
    · rw [hu] at h; cases h; exact hs
  · intro ha j u c hj hc hs
    have : ∃ u0, ts[j]? = some u0 ∧ u0.chan = some c ∧ u0.st.sent = false := by
      rcases get_set hj with ⟨rfl, rfl⟩ | ⟨_, h⟩
      · refine ⟨t, ht, hc, ?_⟩
        cases h : t.st.sent with
        | false => rfl
        | true => simp only [hsent' h] at hs; cases hs
      · exact ⟨u, h, hc, hs⟩
    obtain ⟨u0, h1, h2, h3⟩ := this
    obtain ⟨k, w, hk, hw⟩ := hI.holder ha j u0 c h1 h2 h3
    by_cases hki : k = i
    · subst hki
      rw [ht] at hk
      cases hk
      exact ⟨k, _, set_get ht, by simp only [← hall ha]; exact hw⟩
    · exact ⟨k, w, set_ne hk hki, hw⟩
  · intro t0 t0' h0 h0' hc _ htr
    rcases get_set h0' with ⟨rfl, rfl⟩ | ⟨hne, h⟩
    · rw [ht] at h0
      cases h0
      cases hs : t.st.sent with
      | false => rw [main hc hs, htr, hs]; rfl
      | true =>
        have hk := hI.ok _ t ht
        unfold Task.Ok at hk
        cases hst : t.st with
        | closing => rw [hst, hc] at hk; cases hk
        | over => exact absurd hst hover
        | _ => rw [hst] at hs; cases hs
    · have : tr' = tr := hother fun hn => hne (hI.others i t ht hn).symm
      rw [h0] at h
      cases h
      rw [this, htr]

/-- A sender and a receiver meet. -/
theorem Inv.meet (hI : Inv zero all code ts s tr) {i j n : Nat} {t u : Task V} {r : V → Code V} {env : List (Nat × V)} {e : Nat × V}
    (ht : ts[i]? = some t) (hu : ts[j]? = some u) (hst : t.st = .run (.await n r) env) (he : env[n]? = some e)
    (huc : u.chan = some e.1) (hus : (∃ v env', u.st = .run (.ret v) env') ∨ u.st = .parked) :
    Inv zero all code ((ts.set j ⟨u.chan, u.res, .closing⟩).set i ⟨t.chan, t.res, .run (r e.2) (env.eraseIdx n)⟩)
      ((s.to j (.close e.1 .done)).to i ((r e.2).proc zero (futures (env.eraseIdx n)) (finish t.chan))) tr := by
  have hsu : u.st.sent = false := by
    rcases hus with ⟨v, env', h⟩ | h <;> rw [h] <;> rfl
  have hst' : t.st.sent = false := by rw [hst]; rfl
  have hte : t.st.env = env := by rw [hst]; rfl
  have hmem : e ∈ env := List.mem_of_getElem? he
  have hij : i ≠ j := by
    rintro rfl
    rw [ht] at hu
    cases hu
    obtain ⟨k, w, h1, h2, h3, _⟩ := hI.owner i t e ht (hte ▸ hmem)
    exact absurd (hI.unique i k t w e.1 ht h2 huc h3) (by omega)
  have hnd : (env.map Prod.fst).Nodup := hte ▸ hI.nodup i t ht
  -- the future is held by nobody any more
  have gone : e.1 ∉ (env.eraseIdx n).map Prod.fst := by
    rw [← eraseIdx_map]
    intro h
    exact not_mem_eraseIdx hnd (by rw [List.getElem?_map, he]; rfl) h
  have hui : (ts.set j ⟨u.chan, u.res, .closing⟩)[i]? = some t := set_ne ht hij
  -- the tasks afterwards
  have get : ∀ {k : Nat} {w : Task V}, ((ts.set j ⟨u.chan, u.res, .closing⟩).set i
      ⟨t.chan, t.res, .run (r e.2) (env.eraseIdx n)⟩)[k]? = some w →
      (k = i ∧ w = ⟨t.chan, t.res, .run (r e.2) (env.eraseIdx n)⟩) ∨ (k = j ∧ w = ⟨u.chan, u.res, .closing⟩) ∨
      (k ≠ i ∧ k ≠ j ∧ ts[k]? = some w) := by
    intro k w h
    rcases get_set h with h | ⟨h1, h2⟩
    · exact .inl h
    · rcases get_set h2 with h3 | ⟨h3, h4⟩
      · exact .inr (.inl h3)
      · exact .inr (.inr ⟨h1, h3, h4⟩)
  have geti : ((ts.set j ⟨u.chan, u.res, .closing⟩).set i ⟨t.chan, t.res, .run (r e.2) (env.eraseIdx n)⟩)[i]? = some _ :=
    set_get hui
  have getk : ∀ {k : Nat} {w : Task V}, ts[k]? = some w → k ≠ i → k ≠ j → ((ts.set j ⟨u.chan, u.res, .closing⟩).set i
      ⟨t.chan, t.res, .run (r e.2) (env.eraseIdx n)⟩)[k]? = some w := fun h h1 h2 => set_ne (set_ne h h2) h1
  have hres : u.res = e.2 := by
    obtain ⟨k, w, _, h2, h3, h4, _⟩ := hI.owner i t e ht (hte ▸ hmem)
    have := hI.unique j k u w e.1 hu h2 huc h3
    subst this
    rw [hu] at h2
    cases h2
    exact h4
  have hok := hI.ok i t ht
  unfold Task.Ok at hok
  simp only [hst, Code.value, Code.Scoped, List.getElem?_map, he, Option.map_some, Option.getD_some] at hok
  refine hI.moved (s' := (s.to j (.close e.1 .done)).to i ((r e.2).proc zero (futures (env.eraseIdx n)) (finish t.chan))) i
    (fun k => by rw [stat_set hui, stat_set hu]) ?_ ?_ (Nat.le_refl _) ?_ hI.alive ?_ ?_ ?_ ?_ ?_
  · intro k w w' hk hk'
    rcases get hk' with ⟨rfl, rfl⟩ | ⟨rfl, rfl⟩ | ⟨_, _, h⟩
    · rw [ht] at hk; cases hk; rw [hte]; exact List.eraseIdx_sublist ..
    · exact List.nil_sublist _
    · rw [hk] at h; cases h; exact List.Sublist.refl _
  · intro k w' c hk hc
    rcases get hk with ⟨rfl, rfl⟩ | ⟨rfl, rfl⟩ | ⟨_, _, h⟩
    · cases hc
    · cases hc
    · exact .inl ⟨w', h, hc⟩
  · simp only [Config.to, hI.procs, List.map_set]
    simp only [Task.proc, huc]
  · intro k w hk
    rcases get hk with ⟨rfl, rfl⟩ | ⟨rfl, rfl⟩ | ⟨_, _, h⟩
    · unfold Task.Ok
      obtain ⟨hn, _⟩ := List.getElem?_eq_some_iff.1 he
      refine ⟨by rw [← eraseIdx_map]; exact hok.1, ?_⟩
      rw [List.length_eraseIdx, if_pos hn]
      exact hok.2.2 e.2
    · unfold Task.Ok; simp only [huc]; rfl
    · exact hI.ok k w h
  · intro c ch hch
    obtain ⟨h1, h2, h3⟩ := hI.chans c ch hch
    refine ⟨h1, h2, fun hcl => ?_⟩
    obtain ⟨k, w, hk, h6, h7⟩ := h3 hcl
    refine ⟨k, w, getk hk ?_ ?_, h6, h7⟩
    · rintro rfl
      rw [ht] at hk; cases hk
      rw [h7] at hst; cases hst
    · rintro rfl
      rw [hu] at hk; cases hk
      rw [h7] at hsu; cases hsu
  · intro k w' e' hk he' l w w2 hw hw2 hc hs
    rcases get hw2 with ⟨rfl, rfl⟩ | ⟨rfl, rfl⟩ | ⟨_, _, h⟩
    · rfl
    · exfalso
      rw [hu] at hw; cases hw
      rw [huc] at hc
      have hc : e.1 = e'.1 := by simpa using hc
      rcases get hk with ⟨rfl, rfl⟩ | ⟨rfl, rfl⟩ | ⟨h1, _, h⟩
      · exact gone (hc ▸ List.mem_map_of_mem he')
      · cases he'
      · exact h1 (hI.held k i w' t e.1 h ht (hc ▸ List.mem_map_of_mem he') (hte ▸ List.mem_map_of_mem hmem))
    · rw [hw] at h; cases h; exact hs
  · intro ha l w c hl hc hs
    have : l ≠ j ∧ ∃ w0, ts[l]? = some w0 ∧ w0.chan = some c ∧ w0.st.sent = false := by
      rcases get hl with ⟨rfl, rfl⟩ | ⟨rfl, rfl⟩ | ⟨_, h1, h⟩
      · exact ⟨hij, t, ht, hc, hst'⟩
      · cases hs
      · exact ⟨h1, w, h, hc, hs⟩
    obtain ⟨hlj, w0, h1, h2, h3⟩ := this
    obtain ⟨k, x, hk, hx⟩ := hI.holder ha l w0 c h1 h2 h3
    have hce : c ≠ e.1 := by
      rintro rfl
      exact hlj (hI.unique l j w0 u e.1 h1 hu h2 huc)
    by_cases hki : k = i
    · subst hki
      rw [ht] at hk
      cases hk
      refine ⟨k, _, geti, ?_⟩
      obtain ⟨e', he', rfl⟩ := List.mem_map.1 hx
      rw [hte] at he'
      refine List.mem_map_of_mem ?_
      simp only [TaskSt.env]
      rw [List.mem_eraseIdx_iff_getElem?]
      obtain ⟨m, hm⟩ := List.getElem?_of_mem he'
      refine ⟨m, ?_, hm⟩
      rintro rfl
      rw [he] at hm
      cases hm
      exact hce rfl
    · by_cases hkj : k = j
      · subst hkj
        rw [hu] at hk
        cases hk
        rcases hus with ⟨v, env', h⟩ | h
        · have := hI.ok k u hu
          unfold Task.Ok at this
          simp only [h, Code.Scoped] at this
          have := this.2 ha
          rw [h] at hx
          simp only [TaskSt.env] at hx
          rw [List.length_eq_zero_iff.1 this] at hx
          cases hx
        · rw [h] at hx; cases hx
      · exact ⟨k, x, getk hk hki hkj, hx⟩
  · intro t0 t0' h0 h0' hc _ htr
    rcases get h0' with ⟨rfl, rfl⟩ | ⟨rfl, rfl⟩ | ⟨_, _, h⟩
    · rw [ht] at h0; cases h0
      rw [htr, hst']; rfl
    · rw [hu] at h0; cases h0
      rw [huc] at hc; cases hc
    · rw [h0] at h; cases h; exact htr

/-- `go`: a task starts. -/
theorem Inv.started (hI : Inv zero all code ts s tr) {i c : Nat} {t : Task V} {child r : Code V} {env : List (Nat × V)}
    (ht : ts[i]? = some t) (hst : t.st = .going child r c env) :
    Inv zero all code (ts.set i ⟨t.chan, t.res, .run r (env ++ [(c, child.value zero [])])⟩ ++
        [⟨some c, child.value zero [], .run child []⟩])
      { s with procs := s.procs.set i (r.proc zero (futures env ++ [⟨c⟩]) (finish t.chan)) ++
        [child.proc zero [] (finish (some c))] } tr := by
  have hok := hI.ok i t ht
  unfold Task.Ok at hok
  simp only [hst] at hok
  have hil := (List.getElem?_eq_some_iff.1 ht).1
  have hfr : t.st.fresh = some c := by rw [hst]; rfl
  have hte : t.st.env = env := by rw [hst]; rfl
  have hts : t.st.sent = false := by rw [hst]; rfl
  have hcr : c < s.chans.length := hI.inRange i t c ht (.inr hfr)
  have hnc : c ∉ env.map Prod.fst := by
    intro h
    obtain ⟨e, he, rfl⟩ := List.mem_map.1 h
    obtain ⟨k, w, _, h2, h3, _⟩ := hI.owner i t e ht (hte ▸ he)
    exact hI.freshChan i k t w _ ht h2 hfr h3
  have get : ∀ {k : Nat} {w : Task V}, (ts.set i ⟨t.chan, t.res, .run r (env ++ [(c, child.value zero [])])⟩ ++
        [⟨some c, child.value zero [], .run child []⟩])[k]? = some w →
      (k = i ∧ w = ⟨t.chan, t.res, .run r (env ++ [(c, child.value zero [])])⟩) ∨
      (k = ts.length ∧ w = ⟨some c, child.value zero [], .run child []⟩) ∨ (k ≠ i ∧ ts[k]? = some w) := by
    intro k w h
    by_cases hk : k < ts.length
    · rw [List.getElem?_append_left (by simpa using hk)] at h
      rcases get_set h with h | h
      · exact .inl h
      · exact .inr (.inr h)
    · rw [List.getElem?_append_right (by simpa using hk)] at h
      have : k - (ts.set i ⟨t.chan, t.res, .run r (env ++ [(c, child.value zero [])])⟩).length = 0 := by
        rcases Nat.eq_zero_or_pos (k - (ts.set i ⟨t.chan, t.res, .run r (env ++ [(c, child.value zero [])])⟩).length) with h0 | h0
        · exact h0
        · rw [List.getElem?_eq_none (by simp only [List.length_cons, List.length_nil]; omega)] at h
          cases h
      rw [this] at h
      simp only [List.length_set] at this
      simp only [List.getElem?_cons_zero, Option.some.injEq] at h
      exact .inr (.inl ⟨by omega, h.symm⟩)
  have geti : (ts.set i ⟨t.chan, t.res, .run r (env ++ [(c, child.value zero [])])⟩ ++
        [⟨some c, child.value zero [], .run child []⟩])[i]? = some ⟨t.chan, t.res, .run r (env ++ [(c, child.value zero [])])⟩ := by
    rw [List.getElem?_append_left (by simpa using hil)]
    exact set_get ht
  have getk : ∀ {k : Nat} {w : Task V}, ts[k]? = some w → k ≠ i → (ts.set i ⟨t.chan, t.res, .run r (env ++ [(c, child.value zero [])])⟩ ++
        [⟨some c, child.value zero [], .run child []⟩])[k]? = some w := by
    intro k w h hk
    rw [List.getElem?_append_left (by simpa using (List.getElem?_eq_some_iff.1 h).1)]
    exact set_ne h hk
  have getn : (ts.set i ⟨t.chan, t.res, .run r (env ++ [(c, child.value zero [])])⟩ ++
        [⟨some c, child.value zero [], .run child []⟩])[ts.length]? = some ⟨some c, child.value zero [], .run child []⟩ := by
    rw [List.getElem?_append_right (by simp)]
    simp
  -- channels and results stay, or are those of the new task
  have stat : ∀ {k : Nat} {w : Task V}, (ts.set i ⟨t.chan, t.res, .run r (env ++ [(c, child.value zero [])])⟩ ++
        [⟨some c, child.value zero [], .run child []⟩])[k]? = some w →
      (∃ w0, ts[k]? = some w0 ∧ w.chan = w0.chan ∧ w.st.sent = w0.st.sent ∧ ∀ c', w.st.fresh = some c' → w0.st.fresh = some c' ∧ k ≠ i) ∨
      (k = ts.length ∧ w.chan = some c ∧ w.st.fresh = none) := by
    intro k w h
    rcases get h with ⟨rfl, rfl⟩ | ⟨rfl, rfl⟩ | ⟨h1, h⟩
    · exact .inl ⟨t, ht, rfl, hts.symm, fun _ h => by cases h⟩
    · exact .inr ⟨rfl, rfl, rfl⟩
    · exact .inl ⟨w, h, rfl, rfl, fun _ h => ⟨h, h1⟩⟩
  have notNew : ∀ {k : Nat} {w0 : Task V}, ts[k]? = some w0 → w0.chan ≠ some c := fun h => hI.freshChan i _ t _ c ht h hfr
  -- futures
  have futs : ∀ {k : Nat} {w : Task V} {c' : Nat}, (ts.set i ⟨t.chan, t.res, .run r (env ++ [(c, child.value zero [])])⟩ ++
        [⟨some c, child.value zero [], .run child []⟩])[k]? = some w → c' ∈ w.st.env.map Prod.fst →
      (k = i ∧ c' = c) ∨ (c' ≠ c ∧ ∃ w0, ts[k]? = some w0 ∧ c' ∈ w0.st.env.map Prod.fst) := by
    intro k w c' h hc'
    have old : ∀ {k : Nat} {w0 : Task V}, ts[k]? = some w0 → c' ∈ w0.st.env.map Prod.fst → c' ≠ c := by
      rintro k w0 hk hm rfl
      obtain ⟨e, he, rfl⟩ := List.mem_map.1 hm
      obtain ⟨l, x, _, h2, h3, _⟩ := hI.owner k w0 e hk he
      exact notNew h2 h3
    rcases get h with ⟨rfl, rfl⟩ | ⟨rfl, rfl⟩ | ⟨h1, h⟩
    · simp only [TaskSt.env, List.map_append, List.mem_append, List.map_cons, List.map_nil, List.mem_singleton] at hc'
      rcases hc' with hc' | rfl
      · have : c' ∈ t.st.env.map Prod.fst := by rw [hte]; exact hc'
        exact .inr ⟨old ht this, t, ht, this⟩
      · exact .inl ⟨rfl, rfl⟩
    · cases hc'
    · exact .inr ⟨old h hc', w, h, hc'⟩
  constructor
  · simp only [hI.procs, List.map_append, List.map_set, List.map_cons, List.map_nil, Task.proc, futures]
  · exact hI.alive
  · intro k w hk
    rcases get hk with ⟨rfl, rfl⟩ | ⟨rfl, rfl⟩ | ⟨_, h⟩
    · unfold Task.Ok
      simp only [List.map_append, List.map_cons, List.map_nil, List.length_append, List.length_cons, List.length_nil]
      exact ⟨hok.1, hok.2.2⟩
    · exact ⟨rfl, hok.2.1⟩
    · exact hI.ok k w h
  · intro c' ch hch
    obtain ⟨h1, h2, h3⟩ := hI.chans c' ch hch
    refine ⟨h1, h2, fun hcl => ?_⟩
    obtain ⟨k, w, hk, h6, h7⟩ := h3 hcl
    refine ⟨k, w, getk hk ?_, h6, h7⟩
    rintro rfl
    rw [ht] at hk; cases hk
    rw [h7] at hst; cases hst
  · intro k w c' hk h
    rcases stat hk with ⟨w0, h1, h2, _, h3⟩ | ⟨_, h2, h3⟩
    · rcases h with h | h
      · exact hI.inRange k w0 c' h1 (.inl (h2 ▸ h))
      · exact hI.inRange k w0 c' h1 (.inr (h3 c' h).1)
    · rcases h with h | h
      · rw [h2] at h; cases h; exact hcr
      · rw [h3] at h; cases h
  · intro a b w x c' ha hb hc hd
    rcases stat ha with ⟨w0, h1, h2, _, _⟩ | ⟨h1, h2, _⟩ <;> rcases stat hb with ⟨x0, h4, h5, _, _⟩ | ⟨h4, h5, _⟩
    · exact hI.unique a b w0 x0 c' h1 h4 (h2 ▸ hc) (h5 ▸ hd)
    · rw [h5] at hd; cases hd
      exact absurd (h2 ▸ hc) (notNew h1)
    · rw [h2] at hc; cases hc
      exact absurd (h5 ▸ hd) (notNew h4)
    · rw [h1, h4]
  · intro a b w x c' ha hb hc hd
    rcases stat ha with ⟨w0, h1, h2, _, h3⟩ | ⟨h1, h2, h3⟩
    · obtain ⟨h6, h7⟩ := h3 c' hc
      rcases stat hb with ⟨x0, h4, h5, _, _⟩ | ⟨h4, h5, _⟩
      · exact hI.freshChan a b w0 x0 c' h1 h4 h6 (h5 ▸ hd)
      · rw [h5] at hd; cases hd
        exact h7 (hI.freshOnce a i w0 t c h1 ht h6 hfr)
    · rw [h3] at hc; cases hc
  · intro a b w x c' ha hb hc hd
    rcases stat ha with ⟨w0, h1, h2, _, h3⟩ | ⟨h1, h2, h3⟩
    · rcases stat hb with ⟨x0, h4, h5, _, h6⟩ | ⟨h4, h5, h6⟩
      · exact hI.freshOnce a b w0 x0 c' h1 h4 (h3 _ hc).1 (h6 _ hd).1
      · rw [h6] at hd; cases hd
    · rw [h3] at hc; cases hc
  · intro k w hk
    rcases get hk with ⟨rfl, rfl⟩ | ⟨rfl, rfl⟩ | ⟨_, h⟩
    · simp only [TaskSt.env, List.map_append, List.map_cons, List.map_nil]
      rw [List.nodup_append]
      refine ⟨hte ▸ hI.nodup _ t ht, by simp, ?_⟩
      intro a ha b hb hab
      simp only [List.mem_singleton] at hb
      subst hb hab
      exact hnc ha
    · exact List.nodup_nil
    · exact hI.nodup k w h
  · intro a b w x c' ha hb hc hd
    rcases futs ha hc with ⟨h1, h2⟩ | ⟨h1, w0, h2, h3⟩ <;> rcases futs hb hd with ⟨h4, h5⟩ | ⟨h4, x0, h5, h6⟩
    · rw [h1, h4]
    · exact absurd h2 h4
    · exact absurd h5 h1
    · exact hI.held a b w0 x0 c' h2 h5 h3 h6
  · have old : ∀ {k : Nat} {w0 : Task V} {e : Nat × V}, ts[k]? = some w0 → e ∈ w0.st.env → ∃ (j : Nat) (u : Task V), k < j ∧
        (ts.set i ⟨t.chan, t.res, .run r (env ++ [(c, child.value zero [])])⟩ ++
          [⟨some c, child.value zero [], .run child []⟩])[j]? = some u ∧ u.chan = some e.1 ∧ u.res = e.2 ∧ u.st.sent = false := by
      intro k w0 e hk he
      obtain ⟨j, u, h1, h2, h3, h4, h5⟩ := hI.owner k w0 e hk he
      by_cases hji : j = i
      · subst hji
        rw [ht] at h2; cases h2
        exact ⟨j, _, h1, geti, h3, h4, rfl⟩
      · exact ⟨j, u, h1, getk h2 hji, h3, h4, h5⟩
    intro k w e hk he
    rcases get hk with ⟨rfl, rfl⟩ | ⟨rfl, rfl⟩ | ⟨_, h⟩
    · simp only [TaskSt.env, List.mem_append, List.mem_singleton] at he
      rcases he with he | rfl
      · exact old ht (hte ▸ he)
      · exact ⟨ts.length, _, hil, getn, rfl, rfl, rfl⟩
    · cases he
    · exact old h he
  · intro ha j u c' hj hc hs
    rcases stat hj with ⟨w0, h1, h2, h3, _⟩ | ⟨h1, h2, _⟩
    · obtain ⟨k, x, hk, hx⟩ := hI.holder ha j w0 c' h1 (h2 ▸ hc) (h3 ▸ hs)
      by_cases hki : k = i
      · subst hki
        rw [ht] at hk; cases hk
        refine ⟨k, _, geti, ?_⟩
        simp only [TaskSt.env, List.map_append, List.mem_append]
        exact .inl (hte ▸ hx)
      · exact ⟨k, x, getk hk hki, hx⟩
    · rw [h2] at hc; cases hc
      exact ⟨i, _, geti, by simp [TaskSt.env]⟩
  · obtain ⟨m, h1, h2, h3, h4⟩ := hI.main
    by_cases h0 : 0 = i
    · subst h0
      rw [ht] at h1; cases h1
      exact ⟨_, geti, h2, h3, by rw [h4, hts]; rfl⟩
    · exact ⟨m, getk h1 h0, h2, h3, h4⟩
  · intro k w hk hc
    rcases stat hk with ⟨w0, h1, h2, _, _⟩ | ⟨_, h2, _⟩
    · exact hI.others k w0 h1 (h2 ▸ hc)
    · rw [h2] at hc; cases hc


/-- The futures a task holds are served by tasks that have not sent, on open channels. -/
theorem Inv.pending (hI : Inv zero all code ts s tr) {i : Nat} {t : Task V} {e : Nat × V} (ht : ts[i]? = some t)
    (he : e ∈ t.st.env) : ∃ (j : Nat) (u : Task V), i < j ∧ ts[j]? = some u ∧ u.chan = some e.1 ∧ u.res = e.2 ∧ u.st.sent = false ∧
      ∃ ch, s.chans[e.1]? = some ch ∧ ch.closed = false ∧ ch.buf = [] := by
  obtain ⟨j, u, h1, h2, h3, h4, h5⟩ := hI.owner i t e ht he
  refine ⟨j, u, h1, h2, h3, h4, h5, ?_⟩
  have hlt := hI.inRange j u e.1 h2 (.inl h3)
  refine ⟨_, List.getElem?_eq_getElem hlt, ?_, (hI.chans _ _ (List.getElem?_eq_getElem hlt)).2.1⟩
  cases hcl : (s.chans[e.1]).closed with
  | false => rfl
  | true =>
    obtain ⟨k, w, h6, h7, h8⟩ := (hI.chans _ _ (List.getElem?_eq_getElem hlt)).2.2 hcl
    have := hI.unique j k u w _ h2 h6 h3 h7
    subst this
    rw [h2] at h6; cases h6
    rw [h8] at h5; cases h5

theorem Inv.open_ (hI : Inv zero all code ts s tr) {i c : Nat} {t : Task V} (ht : ts[i]? = some t) (hc : t.chan = some c)
    (ho : t.st ≠ .over) {ch : Chan V} (hch : s.chans[c]? = some ch) : ch.closed = false := by
  cases hcl : ch.closed with
  | false => rfl
  | true =>
    obtain ⟨k, w, h6, h7, h8⟩ := (hI.chans _ _ hch).2.2 hcl
    have := hI.unique i k t w _ ht h6 hc h7
    subst this
    rw [ht] at h6; cases h6
    exact absurd h8 ho

theorem Inv.sender (hI : Inv zero all code ts s tr) {i c : Nat} {v : V} {k : Proc V V} (h : SendsAt s i c v k) :
    ∃ t, ts[i]? = some t ∧ t.chan = some c ∧ k = .close c .done ∧ v = t.res ∧
      ((∃ v env', t.st = .run (.ret v) env') ∨ t.st = .parked) := by
  rcases h with h | h
  · obtain ⟨t, ht, w⟩ := get_proc hI h
    cases w with
    | send hst hc =>
      have := hI.ok i t ht
      unfold Task.Ok at this
      rw [hst] at this
      exact ⟨t, ht, hc, rfl, this.1, .inl ⟨_, _, hst⟩⟩
  · obtain ⟨t, ht, w⟩ := get_proc hI h
    cases w with
    | parked hst hc => exact ⟨t, ht, hc, rfl, rfl, .inr hst⟩

theorem Inv.step (hI : Inv zero all code ts s tr) {e : Option V} (h : Step s e s') :
    ∃ ts', Inv zero all code ts' s' (tr ++ e.toList) ∧
      (ts'.map (Task.weight zero)).sum < (ts.map (Task.weight zero)).sum := by
  have chans0 : ∀ (c : Nat) ch, s.chans[c]? = some ch → ch.cap = 0 ∧ ch.buf = [] := fun c ch h => ⟨(hI.chans c ch h).1, (hI.chans c ch h).2.1⟩
  have nil : tr ++ (none : Option V).toList = tr := by simp
  cases h with
  | emit hc h =>
    obtain ⟨t, ht, w⟩ := get_proc hI h
    cases w with
    | emit hst hch =>
      have hok := hI.ok _ t ht
      unfold Task.Ok at hok
      simp only [hst, Code.value] at hok
      refine ⟨_, hI.one (st := .over) ht (List.nil_sublist _) (fun ha => ?_) (fun c hc => by cases hc) (Nat.le_refl _) rfl hI.alive
        trivial (fun c ch hc => ⟨(chans0 c ch hc).1, (chans0 c ch hc).2, fun hcl => .inl ⟨ch, hc, hcl⟩⟩) (by rw [hst]; simp)
        (fun _ => .inr hch) (fun _ => rfl) (fun _ _ => ?_) (fun hn => absurd hch hn), ?_⟩
      · have := hok.2 ha
        rw [hst]
        exact List.length_eq_zero_iff.1 this
      · rw [← hok.1]; rfl
      · have := sum_set zero (t' := ⟨t.chan, t.res, .over⟩) ht
        have h1 : t.weight zero = 3 := by simp only [Task.weight, hst, Code.cost]
        have h2 : (Task.mk t.chan t.res .over).weight zero = 0 := rfl
        omega
  | tau hc h => obtain ⟨t, ht, w⟩ := get_proc hI h; cases w
  | go hc h =>
    obtain ⟨t, ht, w⟩ := get_proc hI h
    cases w with
    | @go child r c env hst =>
      refine ⟨_, by rw [Option.toList_none, List.append_nil]; exact hI.started ht hst, ?_⟩
      have := sum_set zero (t' := ⟨t.chan, t.res, .run r (env ++ [(c, child.value zero [])])⟩) ht
      have h1 : t.weight zero = 1 + child.cost zero [] + r.cost zero (env.map Prod.snd ++ [child.value zero []]) := by
        simp only [Task.weight, hst]
      have h2 : (Task.mk t.chan t.res (.run r (env ++ [(c, child.value zero [])]))).weight zero =
          r.cost zero (env.map Prod.snd ++ [child.value zero []]) := by
        simp only [Task.weight, List.map_append, List.map_cons, List.map_nil]
      have h3 : (Task.mk (some c) (child.value zero []) (.run child [])).weight zero = child.cost zero [] := rfl
      rw [List.map_append, List.sum_append]
      simp only [List.map_cons, List.map_nil, List.sum_cons, List.sum_nil, h3]
      omega
  | make hc h =>
    obtain ⟨t, ht, w⟩ := get_proc hI h
    cases w with
    | @make child r env hst =>
      have hok := hI.ok _ t ht
      unfold Task.Ok at hok
      simp only [hst, Code.value, Code.Scoped] at hok
      refine ⟨_, hI.one (st := .going child r s.chans.length env) ht (by rw [hst]; exact List.Sublist.refl _) (fun _ => by rw [hst]; rfl)
          (fun c hc => ⟨by simpa [TaskSt.fresh] using hc.symm, by simp⟩) (by simp) rfl hI.alive
          ⟨hok.1, hok.2.1, hok.2.2⟩ (fun c ch hch => ?_) (by rw [hst]; simp) (fun _ => .inl rfl)
          (fun h => by rw [hst] at h; cases h) (fun _ _ => by rw [nil]; simp [TaskSt.sent]) (fun _ => nil), ?_⟩
      · by_cases hl : c < s.chans.length
        · simp only [List.getElem?_append_left hl] at hch
          exact ⟨(chans0 c ch hch).1, (chans0 c ch hch).2, fun hcl => .inl ⟨ch, hch, hcl⟩⟩
        · simp only [List.getElem?_append_right (Nat.le_of_not_lt hl)] at hch
          rcases Nat.eq_zero_or_pos (c - s.chans.length) with h0 | h0
          · rw [h0] at hch
            simp only [List.getElem?_cons_zero, Option.some.injEq] at hch
            subst hch
            exact ⟨rfl, rfl, fun h => by cases h⟩
          · rw [List.getElem?_eq_none (by simp only [List.length_cons, List.length_nil]; omega)] at hch
            cases hch
      · have := sum_set zero (t' := ⟨t.chan, t.res, .going child r s.chans.length env⟩) ht
        have h1 : t.weight zero = 2 + child.cost zero [] + r.cost zero (env.map Prod.snd ++ [child.value zero []]) := by
          simp only [Task.weight, hst, Code.cost]
        have h2 : (Task.mk t.chan t.res (.going child r s.chans.length env)).weight zero =
            1 + child.cost zero [] + r.cost zero (env.map Prod.snd ++ [child.value zero []]) := rfl
        omega
  | park hc h hch hcl =>
    obtain ⟨t, ht, w⟩ := get_proc hI h
    cases w with
    | send hst htc =>
      have hok := hI.ok _ t ht
      unfold Task.Ok at hok
      simp only [hst, Code.value] at hok
      refine ⟨_, hI.one (st := .parked) ht (List.nil_sublist _) (fun ha => ?_) (fun c hc => by cases hc) (Nat.le_refl _)
          (by simp only [Config.to, Task.proc, htc, hok.1]) hI.alive (by unfold Task.Ok; simp only [htc]; rfl)
          (fun c ch hc => ⟨(chans0 c ch hc).1, (chans0 c ch hc).2, fun hcl => .inl ⟨ch, hc, hcl⟩⟩) (by rw [hst]; simp)
          (fun _ => .inl rfl) (fun h => by rw [hst] at h; cases h) (fun hn => by rw [htc] at hn; cases hn) (fun _ => nil), ?_⟩
      · have := hok.2 ha
        rw [hst]
        exact List.length_eq_zero_iff.1 this
      · have := sum_set zero (t' := ⟨t.chan, t.res, .parked⟩) ht
        have h1 : t.weight zero = 3 := by simp only [Task.weight, hst, Code.cost]
        have h2 : (Task.mk t.chan t.res .parked).weight zero = 2 := rfl
        omega
  | sendBuf hc h hch hcl hb => rw [(chans0 _ _ hch).1] at hb; exact absurd hb (Nat.not_lt_zero _)
  | sendClosed hc h hch hcl =>
    obtain ⟨t, ht, h1, _, _, h2⟩ := hI.sender h
    rw [hI.open_ ht h1 (by rcases h2 with ⟨v, env', h⟩ | h <;> rw [h] <;> simp) hch] at hcl
    cases hcl
  | @meet i j c v k r ch hc h hj hch hcl hb =>
    obtain ⟨u, hu, huc, rfl, rfl, hus⟩ := hI.sender h
    obtain ⟨t, ht, w⟩ := get_proc hI hj
    cases w with
    | @recv n r env e hst he =>
      obtain ⟨j', u', hlt, h2, h3, h4, _⟩ := hI.owner _ t e ht (by rw [hst]; exact List.mem_of_getElem? he)
      have := hI.unique _ _ u u' _ hu h2 huc h3
      subst this
      rw [hu] at h2; cases h2
      have hm := hI.meet ht hu hst he huc hus
      refine ⟨_, by rw [Option.toList_none, List.append_nil, h4]; exact hm, ?_⟩
      have hij : j ≠ i := by omega
      have s1 := sum_set zero (t' := ⟨u.chan, u.res, .closing⟩) hu
      have s2 := sum_set zero (t' := ⟨t.chan, t.res, .run (r e.2) (env.eraseIdx n)⟩) (ts := ts.set i ⟨u.chan, u.res, .closing⟩)
        (set_ne ht hij)
      have h1 : t.weight zero = 1 + (r e.2).cost zero ((env.map Prod.snd).eraseIdx n) := by
        simp only [Task.weight, hst, Code.cost, List.getElem?_map, he, Option.map_some, Option.getD_some]
      have h2 : (Task.mk t.chan t.res (.run (r e.2) (env.eraseIdx n))).weight zero = (r e.2).cost zero ((env.map Prod.snd).eraseIdx n) := by
        rw [eraseIdx_map]; rfl
      have h3 : 2 ≤ u.weight zero := by
        rcases hus with ⟨v, env', h⟩ | h <;> simp [Task.weight, h, Code.cost]
      have h5 : (Task.mk u.chan u.res .closing).weight zero = 1 := rfl
      omega
  | meetPoll hc h hj hch hcl hb => obtain ⟨t, ht, w⟩ := get_proc hI hj; cases w
  | recvBuf hc hj hch hb => rw [(chans0 _ _ hch).2] at hb; cases hb
  | pollBuf hc hj hch hb => rw [(chans0 _ _ hch).2] at hb; cases hb
  | recvClosed hc hj hch hcl hb =>
    obtain ⟨t, ht, w⟩ := get_proc hI hj
    cases w with
    | recv hst he =>
      obtain ⟨_, _, _, _, _, _, _, ch', h1, h2, _⟩ := hI.pending ht (by rw [hst]; exact List.mem_of_getElem? he)
      rw [hch] at h1; cases h1
      rw [hcl] at h2; cases h2
  | pollClosed hc hj hch hcl hb => obtain ⟨t, ht, w⟩ := get_proc hI hj; cases w
  | pollDefault hc hj hch hcl hb hn => obtain ⟨t, ht, w⟩ := get_proc hI hj; cases w
  | close hc h hch hcl =>
    obtain ⟨t, ht, w⟩ := get_proc hI h
    cases w with
    | close hst htc =>
      refine ⟨_, hI.one (st := .over) ht (List.nil_sublist _) (fun ha => by rw [hst]; rfl) (fun c hc => by cases hc) (by simp)
          rfl hI.alive trivial (fun c' ch' hc' => ?_) (by rw [hst]; simp) (fun h => by rw [hst] at h; cases h) (fun _ => rfl)
          (fun hn => by rw [htc] at hn; cases hn) (fun _ => nil), ?_⟩
      · simp only [List.getElem?_set] at hc'
        split at hc'
        · next hcc =>
          subst hcc
          split at hc'
          · simp only [Option.some.injEq] at hc'
            subst hc'
            exact ⟨(chans0 _ _ hch).1, (chans0 _ _ hch).2, fun _ => .inr ⟨htc, rfl⟩⟩
          · cases hc'
        · exact ⟨(chans0 _ _ hc').1, (chans0 _ _ hc').2, fun hcl => .inl ⟨ch', hc', hcl⟩⟩
      · have := sum_set zero (t' := ⟨t.chan, t.res, .over⟩) ht
        have h1 : t.weight zero = 1 := by simp only [Task.weight, hst]
        have h2 : (Task.mk t.chan t.res .over).weight zero = 0 := rfl
        omega
  | closeClosed hc h hch hcl =>
    obtain ⟨t, ht, w⟩ := get_proc hI h
    cases w with
    | close hst htc =>
      rw [hI.open_ ht htc (by rw [hst]; simp) hch] at hcl
      cases hcl
  | lock hc h => obtain ⟨t, ht, w⟩ := get_proc hI h; cases w
  | tryLock hc h => obtain ⟨t, ht, w⟩ := get_proc hI h; cases w
  | tryLockFails hc h => obtain ⟨t, ht, w⟩ := get_proc hI h; cases w
  | unlock hc h => obtain ⟨t, ht, w⟩ := get_proc hI h; cases w
  | unlockFree hc h => obtain ⟨t, ht, w⟩ := get_proc hI h; cases w
  | load hc h => obtain ⟨t, ht, w⟩ := get_proc hI h; cases w
  | store hc h => obtain ⟨t, ht, w⟩ := get_proc hI h; cases w


/-- A task that is neither at its end nor waiting in its send keeps the program going. -/
theorem Inv.progress (hI : Inv zero all code ts s tr) : ∀ (n i : Nat) (t : Task V), ts.length - i ≤ n → ts[i]? = some t → t.st ≠ .over →
    t.st ≠ .parked → ∃ e s', Step s e s' := by
  intro n
  induction n with
  | zero =>
    intro i t hn ht _ _
    have := (List.getElem?_eq_some_iff.1 ht).1
    omega
  | succ n ih =>
    intro i t hn ht ho hp
    have hproc : s.procs[i]? = some (t.proc zero) := by rw [hI.procs, List.getElem?_map, ht]; rfl
    have hok := hI.ok i t ht
    unfold Task.Ok at hok
    have isOpen : ∀ {c : Nat}, t.chan = some c → ∃ ch, s.chans[c]? = some ch ∧ ch.closed = false := by
      intro c hc
      have hlt := hI.inRange i t c ht (.inl hc)
      exact ⟨_, List.getElem?_eq_getElem hlt, hI.open_ ht hc ho (List.getElem?_eq_getElem hlt)⟩
    cases hst : t.st with
    | over => exact absurd hst ho
    | parked => exact absurd hst hp
    | going child r c env =>
      simp only [Task.proc, hst] at hproc
      exact ⟨_, _, .go hI.alive hproc⟩
    | closing =>
      rw [hst] at hok
      obtain ⟨c, hc⟩ := Option.isSome_iff_exists.1 hok
      simp only [Task.proc, hst, hc] at hproc
      obtain ⟨ch, h1, h2⟩ := isOpen hc
      exact ⟨_, _, .close hI.alive hproc h1 h2⟩
    | run k env =>
      simp only [Task.proc, hst] at hproc
      cases k with
      | ret v =>
        cases hc : t.chan with
        | none =>
          rw [hc] at hproc
          exact ⟨_, _, .emit hI.alive hproc⟩
        | some c =>
          rw [hc] at hproc
          obtain ⟨ch, h1, h2⟩ := isOpen hc
          exact ⟨_, _, .park hI.alive hproc h1 h2⟩
      | spawn child r => exact ⟨_, _, .make hI.alive hproc⟩
      | await m r =>
        simp only [hst, Code.Scoped] at hok
        have he : env[m]? = some env[m] := List.getElem?_eq_getElem hok.2.1
        simp only [Code.proc, futures, List.getElem?_map, he, Option.map_some, Gokio.await] at hproc
        obtain ⟨j, u, h1, h2, h3, h4, h5, ch, h6, h7, h8⟩ := hI.pending ht (by rw [hst]; exact List.mem_of_getElem? he)
        have huproc : s.procs[j]? = some (u.proc zero) := by rw [hI.procs, List.getElem?_map, h2]; rfl
        have hlt := (List.getElem?_eq_some_iff.1 h2).1
        by_cases hup : u.st = .parked
        · simp only [Task.proc, hup, h3] at huproc
          exact ⟨_, _, .meet hI.alive (.waiting huproc) hproc h6 h7 h8⟩
        · exact ih j u (by omega) h2 (by intro h; rw [h] at h5; cases h5) hup

theorem initial (hs : code.Scoped all 0) :
    Inv zero all code [⟨none, code.value zero [], .run code []⟩] (program zero code) [] := by
  have get : ∀ {k : Nat} {w : Task V}, [Task.mk none (code.value zero []) (.run code [])][k]? = some w →
      k = 0 ∧ w = ⟨none, code.value zero [], .run code []⟩ := by
    intro k w h
    cases k with
    | zero => exact ⟨rfl, by simpa using h.symm⟩
    | succ k => simp at h
  refine ⟨rfl, rfl, ?_, ?_, ?_, ?_, ?_, ?_, ?_, ?_, ?_, ?_, ⟨_, rfl, rfl, rfl, rfl⟩, fun i t h _ => (get h).1⟩
  · intro i t h
    rw [(get h).2]
    exact ⟨rfl, hs⟩
  · intro c ch h
    simp [program, start] at h
  · intro i t c h hc
    rw [(get h).2] at hc
    rcases hc with h | h <;> cases h
  · intro i j t u c h h' _ _
    rw [(get h).1, (get h').1]
  · intro i j t u c h h' hf
    rw [(get h).2] at hf
    cases hf
  · intro i j t u c h h' _ _
    rw [(get h).1, (get h').1]
  · intro i t h
    rw [(get h).2]
    exact List.nodup_nil
  · intro i j t u c h h' _ _
    rw [(get h).1, (get h').1]
  · intro i t e h he
    rw [(get h).2] at he
    cases he
  · intro _ j u c h hc _
    rw [(get h).2] at hc
    cases hc

theorem run_inv (hs : code.Scoped all 0) (h : Run (program zero code) tr s) : ∃ ts, Inv zero all code ts s tr := by
  induction h with
  | nil => exact ⟨_, initial hs⟩
  | step _ h ih =>
    obtain ⟨ts, hI⟩ := ih
    obtain ⟨ts', hI', _⟩ := hI.step h
    exact ⟨ts', hI'⟩

theorem Inv.acc : ∀ (n : Nat) (ts : List (Task V)) (s : Config V V) (tr : List V), Inv zero all code ts s tr →
    (ts.map (Task.weight zero)).sum ≤ n → Acc (fun t s : Config V V => ∃ e, Step s e t) s := by
  intro n
  induction n with
  | zero =>
    intro ts s tr hI hw
    refine Acc.intro _ fun t ⟨e, h⟩ => ?_
    obtain ⟨_, _, h⟩ := hI.step h
    omega
  | succ n ih =>
    intro ts s tr hI hw
    refine Acc.intro _ fun t ⟨e, h⟩ => ?_
    obtain ⟨ts', hI', h⟩ := hI.step h
    exact ih ts' t _ hI' (by omega)

/-- Where the program stops. -/
theorem Inv.stopped (hI : Inv zero all code ts s tr) (hn : ¬ ∃ e s', Step s e s') :
    tr = [code.value zero []] ∧ ∀ (i : Nat) t, ts[i]? = some t → t.st = .over ∨ (t.st = .parked ∧ all = false) := by
  have h1 : ∀ (i : Nat) t, ts[i]? = some t → t.st = .over ∨ t.st = .parked := by
    intro i t ht
    by_cases ho : t.st = .over
    · exact .inl ho
    · by_cases hp : t.st = .parked
      · exact .inr hp
      · exact absurd (hI.progress _ i t (Nat.le_refl _) ht ho hp) hn
  refine ⟨?_, fun i t ht => ?_⟩
  · obtain ⟨t, ht, hc, hr, htr⟩ := hI.main
    rcases h1 0 t ht with h | h
    · rw [htr, h, hr]; rfl
    · have := hI.ok 0 t ht
      unfold Task.Ok at this
      rw [h, hc] at this
      cases this
  · rcases h1 i t ht with h | h
    · exact .inl h
    · refine .inr ⟨h, ?_⟩
      cases ha : all with
      | false => rfl
      | true =>
        exfalso
        have hok := hI.ok i t ht
        unfold Task.Ok at hok
        rw [h] at hok
        obtain ⟨c, hc⟩ := Option.isSome_iff_exists.1 hok
        obtain ⟨k, u, hk, hu⟩ := hI.holder ha i t c ht hc (by rw [h]; rfl)
        rcases h1 k u hk with h2 | h2 <;> rw [h2] at hu <;> cases hu
end
end TaskTree

open TaskTree
variable {V : Type}

/-- C154: a program of gokio tasks that spawn tasks, which spawn tasks in turn, await futures they hold, each at most once and in
any order, and go on depending on the results, never panics, and shows nothing but the value of executing every spawned
function at once instead. -/
theorem C154_task_tree (zero : V) {code : Code V} (hs : code.Scoped false 0) {tr : List V} {s : Config V V}
    (h : Run (program zero code) tr s) : s.crashed = false ∧ tr <+: [code.value zero []] := by
  obtain ⟨ts, hI⟩ := run_inv hs h
  refine ⟨hI.alive, ?_⟩
  obtain ⟨t, _, _, hr, rfl⟩ := hI.main
  rw [hr]
  split
  · exact List.prefix_refl _
  · exact List.nil_prefix

/-- C154: it does not get stuck: when no goroutine can go on, main has got its value and every goroutine has ended, or waits to
send the result of a future that nobody awaited. -/
theorem C154_no_deadlock (zero : V) {code : Code V} (hs : code.Scoped false 0) {tr : List V} {s : Config V V}
    (h : Run (program zero code) tr s) : (∃ e t, Step s e t) ∨
    (tr = [code.value zero []] ∧ ∀ p ∈ s.procs, p = .done ∨ ∃ c v, p = .parked c v (.close c .done)) := by
  obtain ⟨ts, hI⟩ := run_inv hs h
  by_cases hn : ∃ e s', Step s e s'
  · exact .inl hn
  · refine .inr ⟨(hI.stopped hn).1, fun p hp => ?_⟩
    rw [hI.procs, List.mem_map] at hp
    obtain ⟨t, ht, rfl⟩ := hp
    obtain ⟨i, hi⟩ := List.getElem?_of_mem ht
    rcases (hI.stopped hn).2 i t hi with h1 | ⟨h1, _⟩
    · exact .inl (by simp only [Task.proc, h1])
    · simp only [Task.proc, h1]
      cases t.chan with
      | none => exact .inl rfl
      | some c => exact .inr ⟨c, t.res, rfl⟩

/-- C154: if every task awaits all of its futures, all goroutines end. -/
theorem C154_all_end (zero : V) {code : Code V} (hs : code.Scoped true 0) {tr : List V} {s : Config V V}
    (h : Run (program zero code) tr s) : (∃ e t, Step s e t) ∨ (tr = [code.value zero []] ∧ ∀ p ∈ s.procs, p = .done) := by
  obtain ⟨ts, hI⟩ := run_inv hs h
  by_cases hn : ∃ e s', Step s e s'
  · exact .inl hn
  · refine .inr ⟨(hI.stopped hn).1, fun p hp => ?_⟩
    rw [hI.procs, List.mem_map] at hp
    obtain ⟨t, ht, rfl⟩ := hp
    obtain ⟨i, hi⟩ := List.getElem?_of_mem ht
    rcases (hI.stopped hn).2 i t hi with h1 | ⟨_, h1⟩
    · simp only [Task.proc, h1]
    · cases h1

/-- C154: under every schedule it comes to an end. -/
theorem C154_terminates (zero : V) {code : Code V} (hs : code.Scoped false 0) :
    Acc (fun t s : Config V V => ∃ e, Step s e t) (program zero code) :=
  Inv.acc _ _ _ _ (initial hs) (Nat.le_refl _)

/-- Fibonacci numbers, a task for each call. -/
def fibTask : Nat → Code Nat
  | 0 => .ret 0
  | 1 => .ret 1
  | n + 2 => .spawn (fibTask n) (.spawn (fibTask (n + 1)) (.await 1 fun a => .await 0 fun b => .ret (a + b)))
theorem fibTask_scoped (all : Bool) : ∀ n, (fibTask n).Scoped all 0
  | 0 => fun _ => rfl
  | 1 => fun _ => rfl
  | n + 2 => ⟨fibTask_scoped all n, fibTask_scoped all (n + 1), by decide, fun _ => ⟨by decide, fun _ _ => rfl⟩⟩
example (n : Nat) {tr s} (h : Run (program 0 (fibTask n)) tr s) : s.crashed = false ∧ tr <+: [(fibTask n).value 0 []] :=
  C154_task_tree 0 (fibTask_scoped false n) h
example (n : Nat) {tr s} (h : Run (program 0 (fibTask n)) tr s) (hn : ¬ ∃ e t, Step s e t) : ∀ p ∈ s.procs, p = .done :=
  ((C154_all_end 0 (fibTask_scoped true n) h).resolve_left hn).2
example : (fibTask 10).value 0 [] = 55 := by decide +kernel
example (n : Nat) : Acc (fun t s : Config Nat Nat => ∃ e, Step s e t) (program 0 (fibTask n)) := C154_terminates 0 (fibTask_scoped false n)
/-- The task spawned next depends on a result; one future is never awaited. -/
def pickTask : Code Nat :=
  .spawn (.ret 7) (.spawn (.ret 3) (.await 1 fun a => .spawn (fibTask a) (.await 1 fun b => .ret (b + 100))))
example : pickTask.Scoped false 0 ∧ ¬ pickTask.Scoped true 0 ∧ pickTask.value 0 [] = 102 := by
  refine ⟨⟨nofun, nofun, by decide, fun a => ⟨fibTask_scoped false a, by decide, fun _ => nofun⟩⟩, ?_, by decide⟩
  rintro ⟨_, _, _, h⟩
  exact absurd ((h 3).2.2 0 rfl) (by decide)
end Gost
