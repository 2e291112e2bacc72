import Verif.Props.Race
import Verif.Props.SharedObject
import Verif.Props.ForkJoin
import Verif.Props.Backoff
/-
Property C166 for the programs of C153, C157, C160 and C167: they have no data races, so that Go's memory model gives them the
interleaving semantics in which those properties are proved.
-/
namespace Gost
open Conc Race
namespace Race

section
variable {V : Type}

/-! ### Transactions -/

theorem disc_lockAll {Γ : Chans V} {k : (Nat → Nat) → Proc V (Nat × V)} : ∀ (ms : List Nat) (X : Perms),
    (∀ X' : Perms, (∀ m ∈ ms, ∀ t, X' (.var m t)) → (∀ x, X x → X' x) → Disc values (k id) Γ X') → Disc values (Tx.lockAll ms id k) Γ X
  | [], X, hk => hk X (by simp) fun _ h => h
  | m :: ms, X, hk => by
    have e : upd (id : Nat → Nat) m m = id := by
      funext n
      simp only [upd]
      split <;> rename_i h
      · exact h.symm
      · rfl
    show Disc values (Tx.lockAll ms (upd id m m) k) Γ fun x => X x ∨ values m x
    rw [e]
    refine disc_lockAll ms _ fun X' h1 h2 => hk X' (fun m' hm t => ?_) fun x hx => h2 x (.inl hx)
    rcases List.mem_cons.1 hm with rfl | hm
    · exact h2 _ (.inr ⟨t, rfl⟩)
    · exact h1 m' hm t

theorem disc_unlockAll {Γ : Chans V} {k : Proc V (Nat × V)} (hk : ∀ X, Disc values k Γ X) : ∀ (us : List Nat) (X : Perms), us.Nodup →
    (∀ m ∈ us, ∀ t, X (.var m t)) → Disc values (Tx.unlockAll us k) Γ X
  | [], X, _, _ => hk X
  | u :: us, X, hn, hX => by
    rw [List.nodup_cons] at hn
    refine ⟨?_, disc_unlockAll hk us _ hn.2 fun m hm t => ⟨hX m (List.mem_cons_of_mem _ hm) t, ?_⟩⟩
    · rintro x ⟨t, rfl⟩
      exact hX u List.mem_cons_self t
    · rintro ⟨t', h⟩
      cases h
      exact hn.1 hm

theorem disc_txn {Γ : Chans V} {X : Perms} {ms : List Nat} {k : V → Proc V (Nat × V)} (hX : ∀ m ∈ ms, ∀ t, X (.var m t))
    (hk : ∀ v, Disc values (k v) Γ X) : ∀ b : Tx.Body V, b.Within ms → Disc values (b.proc id k) Γ X
  | .ret v, _ => hk v
  | .get m b, h => ⟨⟨0, hX m h.1 0⟩, fun v => disc_txn hX hk (b v) (h.2 v)⟩
  | .put m _ b, h => ⟨hX m h.1, disc_txn hX hk b h.2⟩

theorem disc_txns {Γ : Chans V} (i : Nat) : ∀ (c : Tx.Client V) (X : Perms), c.All Tx.Txn.Ok → Disc values (c.proc i) Γ X
  | .stop, _, _ => trivial
  | .txn t k, X, h => by
    refine disc_lockAll t.locks X fun X' h1 _ => disc_txn h1 (fun v => ?_) t.body h.1.within
    exact disc_unlockAll (fun Y => disc_txns i (k v) Y (h.2 v)) t.unlocks X' (h.1.unlocks.nodup_iff.2 h.1.nodup)
      fun m hm => h1 m (h.1.unlocks.mem_iff.1 hm)

/-! ### Transactions that back off -/

theorem disc_takeAll {Γ : Chans V} {l : List Nat → Proc V (Nat × Option V)} {k : (Nat → Nat) → Proc V (Nat × Option V)} :
    ∀ (ts : List Backoff.Take) (held : List Nat) (X : Perms), (∀ m ∈ held, ∀ t, X (.var m t)) →
    (∀ (held' : List Nat) (X' : Perms), held' <+: held ++ ts.map Backoff.Take.m → (∀ m ∈ held', ∀ t, X' (.var m t)) → Disc values (l held') Γ X') →
    (∀ X' : Perms, (∀ m ∈ held ++ ts.map Backoff.Take.m, ∀ t, X' (.var m t)) → Disc values (k id) Γ X') →
    Disc values (Backoff.takeAll l ts held id k) Γ X
  | [], held, X, hX, _, hk => hk X (by simpa using hX)
  | ⟨w, m⟩ :: ts, held, X, hX, hl, hk => by
    have e : held ++ (⟨w, m⟩ :: ts : List Backoff.Take).map Backoff.Take.m = (held ++ [m]) ++ ts.map Backoff.Take.m := by simp
    have go : Disc values (Backoff.takeAll l ts (held ++ [m]) id k) Γ fun x => X x ∨ values m x := by
      refine disc_takeAll ts (held ++ [m]) _ (fun m' hm t => ?_) (fun held' X' hp => hl held' X' (by rw [e]; exact hp)) fun X' hX' => hk X' (by rw [e]; exact hX')
      rcases List.mem_append.1 hm with hm | hm
      · exact .inl (hX m' hm t)
      · rw [List.mem_singleton] at hm
        subst hm
        exact .inr ⟨t, rfl⟩
    cases w with
    | true =>
      rw [Backoff.takeAll_wait]
      exact go
    | false =>
      rw [Backoff.takeAll_try]
      exact ⟨by simpa using go, by simpa using hl held X (List.prefix_append _ _) hX⟩

theorem disc_giveBack {Γ : Chans V} {k : Proc V (Nat × Option V)} (hk : ∀ X, Disc values k Γ X) : ∀ (us : List Nat) (X : Perms), us.Nodup →
    (∀ m ∈ us, ∀ t, X (.var m t)) → Disc values (Backoff.unlockAll us k) Γ X
  | [], X, _, _ => hk X
  | u :: us, X, hn, hX => by
    rw [List.nodup_cons] at hn
    refine ⟨?_, disc_giveBack hk us _ hn.2 fun m hm t => ⟨hX m (List.mem_cons_of_mem _ hm) t, ?_⟩⟩
    · rintro x ⟨t, rfl⟩
      exact hX u List.mem_cons_self t
    · rintro ⟨t', h⟩
      cases h
      exact hn.1 hm

theorem disc_attempt {Γ : Chans V} {X : Perms} {ms : List Nat} {k : V → Proc V (Nat × Option V)} (hX : ∀ m ∈ ms, ∀ t, X (.var m t))
    (hk : ∀ v, Disc values (k v) Γ X) : ∀ b : Tx.Body V, b.Within ms → Disc values (Backoff.bodyProc id b k) Γ X
  | .ret v, _ => hk v
  | .get m b, h => ⟨⟨0, hX m h.1 0⟩, fun v => disc_attempt hX hk (b v) (h.2 v)⟩
  | .put m _ b, h => ⟨hX m h.1, disc_attempt hX hk b h.2⟩

theorem disc_attempts {Γ : Chans V} (i : Nat) : ∀ (c : Backoff.Client V) (X : Perms), c.All Backoff.Txn.Ok → Disc values (c.proc i) Γ X
  | .stop, _, _ => trivial
  | .txn t k, X, h => by
    refine disc_takeAll t.takes [] X (by simp) (fun held X' hp hX' => ?_) fun X' hX' => disc_attempt hX' (fun v => ?_) t.body h.1.within
    · have hb := h.1.back held hp
      exact disc_giveBack (fun Y => disc_attempts i (k none) Y (h.2 none)) (t.back held) X' (hb.nodup_iff.2 (hp.sublist.nodup h.1.nodup))
        fun m hm => hX' m (hb.mem_iff.1 hm)
    · exact disc_giveBack (fun Y => disc_attempts i (k (some v)) Y (h.2 _)) t.unlocks X' (h.1.unlocks.nodup_iff.2 h.1.nodup)
        fun m hm => hX' m (h.1.unlocks.mem_iff.1 hm)

/-! ### Fork and join -/

/-- Channels that carry no permissions. -/
def Plain (Γ : Chans V) (c : Nat) : Prop := Γ c = some (fun _ _ => False, .many)

theorem Plain.upd {Γ : Chans V} {c d : Nat} (h : Plain Γ c) (hd : Γ d = none) (x : Option ((V → Perms) × Use)) : Plain (upd Γ d x) c := by
  have e : c ≠ d := fun e => by rw [Plain, e, hd] at h; cases h
  rw [Plain, Conc.upd, if_neg e]
  exact h

theorem disc_update {Γ : Chans V} {X : Perms} {k : Proc V (ForkJoin.Event V)} (hX : ∀ t, X (.var 0 t)) (hk : Disc guard0 k Γ X) :
    ∀ gs : List (V → V), Disc guard0 (ForkJoin.update 0 gs k) Γ X
  | [] => hk
  | _ :: gs => ⟨⟨0, hX 0⟩, fun _ => ⟨hX, disc_update hX hk gs⟩⟩

theorem disc_work {Γ : Chans V} {k : Proc V (ForkJoin.Event V)} (hk : ∀ X, Disc guard0 k Γ X) :
    ∀ (ss : List (List (V → V))) (X : Perms), Disc guard0 (ForkJoin.work (Mutex.new 0 0) ss k) Γ X
  | [], X => hk X
  | gs :: r, X => by
    refine disc_update (X := fun x => X x ∨ guard0 0 x) (fun t => .inr ⟨rfl, t, rfl⟩) (k := (Mutex.new 0 0).unlock _) ⟨?_, disc_work hk r _⟩ gs
    rintro x ⟨_, t, rfl⟩
    exact .inr ⟨rfl, t, rfl⟩

theorem disc_sendOff {Γ : Chans V} {c : Nat} (h : Plain Γ c) (v : V) (X : Perms) :
    Disc guard0 (.send c v .done : Proc V (ForkJoin.Event V)) Γ X ∧ Disc guard0 (.send c v (.close c .done) : Proc V (ForkJoin.Event V)) Γ X :=
  ⟨⟨_, _, h, fun _ h => h.elim, trivial⟩, _, _, h, fun _ h => h.elim, _, _, h, .inl rfl, trivial⟩

/-- The channel of a handle. -/
def handleChan : ForkJoin.Handle → Nat
  | .thread h => h.channel
  | .future f => f.ch

theorem disc_spawnJobs {unit : V} {k : List ForkJoin.Handle → Proc V (ForkJoin.Event V)} : ∀ (js : List (ForkJoin.Job V)) (Γ : Chans V) (X : Perms),
    (∀ (Γ' : Chans V) (hs : List ForkJoin.Handle) (X' : Perms), (∀ h ∈ hs, Plain Γ' (handleChan h)) → (∀ c, Plain Γ c → Plain Γ' c) → Disc guard0 (k hs) Γ' X') →
    Disc guard0 (ForkJoin.spawnAll unit (Mutex.new 0 0) js k) Γ X
  | [], Γ, X, hk => hk Γ [] X (by simp) fun _ h => h
  | j :: js, Γ, X, hk => by
    have rest : ∀ (h : ForkJoin.Handle) (Γ1 : Chans V) (Y : Perms), Plain Γ1 (handleChan h) → (∀ c, Plain Γ c → Plain Γ1 c) →
        Disc guard0 (ForkJoin.spawnAll unit (Mutex.new 0 0) js fun hs => k (h :: hs)) Γ1 Y := by
      intro h Γ1 Y h1 h2
      refine disc_spawnJobs js Γ1 Y fun Γ' hs X' h3 h4 => hk Γ' (h :: hs) X' (fun h' hm => ?_) fun c hc => h4 c (h2 c hc)
      rcases List.mem_cons.1 hm with rfl | hm
      · exact h4 _ h1
      · exact h3 h' hm
    have here : ∀ c, Plain (Conc.upd Γ c (some (fun _ _ => False, .many))) c := fun c => by rw [Plain, Conc.upd, if_pos rfl]
    show Disc guard0 (ForkJoin.spawnJob unit (Mutex.new 0 0) j _) Γ X
    unfold ForkJoin.spawnJob
    cases j.returns with
    | none =>
      exact ⟨rfl, (fun _ _ => False, .many), fun c hc => ⟨fun _ => False, fun _ => False, fun _ h => h.elim, fun _ h => h.elim, fun _ h => h.elim,
        disc_work (fun Y => (disc_sendOff (here c) _ Y).1) _ _, rest (.thread ⟨c⟩) _ _ (here c) fun d hd => hd.upd hc _⟩⟩
    | some r =>
      exact ⟨rfl, (fun _ _ => False, .many), fun c hc => ⟨fun _ => False, fun _ => False, fun _ h => h.elim, fun _ h => h.elim, fun _ h => h.elim,
        disc_work (fun Y => (disc_sendOff (here c) _ Y).2) _ _, rest (.future ⟨c⟩) _ _ (here c) fun d hd => hd.upd hc _⟩⟩

theorem disc_waitJobs {zero : V} {Γ : Chans V} {hs : List ForkJoin.Handle} (hΓ : ∀ h ∈ hs, Plain Γ (handleChan h)) {k : Proc V (ForkJoin.Event V)}
    (hk : ∀ X, Disc guard0 k Γ X) : ∀ (is : List Nat) (X : Perms), Disc guard0 (ForkJoin.waitAll zero hs is k) Γ X
  | [], X => hk X
  | i :: is, X => by
    have ih := disc_waitJobs (zero := zero) hΓ hk is
    show Disc guard0 (match hs[i]? with
      | some h => ForkJoin.waitFor zero i (ForkJoin.waitAll zero hs is k) h
      | none => ForkJoin.waitAll zero hs is k) Γ X
    cases hi : hs[i]? with
    | none => exact ih X
    | some h =>
      have hc := hΓ h (List.mem_of_getElem? hi)
      cases h with
      | thread h => exact ⟨_, _, hc, by simp, fun _ => ih _, fun _ => ih _⟩
      | future f => exact ⟨_, _, hc, by simp, fun _ => ih _, fun _ => ih _⟩
end
end Race

variable {V : Type}

/-- **C166.** Transactions over several Mutexes (the programs of C157, in any order of the Locks) have no data races. -/
theorem C166_transactions (f : Nat → V) (cs : List (Tx.Client V)) (hcs : ∀ c ∈ cs, c.All Tx.Txn.Ok) {as : List Act} {s : Config V (Nat × V)}
    (h : Exec (Tx.program f cs) as s) : ¬ Conc.Race as := by
  refine C166_discipline values_ok (disc_goAll (k := .done) trivial _ fun p hp => ?_) h
  obtain ⟨i, hi, rfl⟩ := List.mem_mapIdx.1 hp
  exact disc_txns i _ _ (hcs _ (List.getElem_mem hi))

/-- **C166.** Transactions that take Mutexes by TryLock and back off (the programs of C167) have no data races. -/
theorem C166_backoff (f : Nat → V) (cs : List (Backoff.Client V)) (hcs : ∀ c ∈ cs, c.All Backoff.Txn.Ok) {as : List Act}
    {s : Config V (Nat × Option V)} (h : Exec (Backoff.program f cs) as s) : ¬ Conc.Race as := by
  refine C166_discipline values_ok (disc_goAll (k := .done) trivial _ fun p hp => ?_) h
  obtain ⟨i, hi, rfl⟩ := List.mem_mapIdx.1 hp
  exact disc_attempts i _ _ (hcs _ (List.getElem_mem hi))

/-- **C166.** A collection behind a Mutex, used by any number of goroutines (the programs of C160), has no data races. -/
theorem C166_shared {S O R : Type} (step : O → S → Option (S × R)) (s0 : S) (cs : List (Shared.Caller O R)) {as : List Act}
    {s : Config (Shared.Val S R) (Nat × Shared.Val S R)} (h : Exec (Shared.shared step s0 cs) as s) : ¬ Conc.Race as :=
  C166_transactions _ _ (fun c hc => Shared.Client.All.imp (fun _ h => h.1) c (Shared.clients_ok step cs c hc)) h

/-- **C166.** Threads and tasks that share a Mutex, waited for in any order, and main that reads the value at the end (the programs of C153) have
no data races. -/
theorem C166_forkJoin (unit zero v : V) (jobs : List (ForkJoin.Job V)) (order : List Nat) {as : List Act} {s : Config V (ForkJoin.Event V)}
    (h : Exec (ForkJoin.program unit zero v jobs order) as s) : ¬ Conc.Race as := by
  refine C166_discipline guard0_ok (disc_spawnJobs jobs _ _ fun Γ hs X hΓ _ => disc_waitJobs hΓ (fun Y => ?_) order X) h
  refine ⟨⟨0, .inr ⟨rfl, 0, rfl⟩⟩, fun x => ⟨?_, trivial⟩⟩
  rintro x ⟨_, t, rfl⟩
  exact .inr ⟨rfl, t, rfl⟩
-- transfers between two Mutexes in opposite directions: they may deadlock, but do not race
example {as : List Act} {s : Config Int (Nat × Int)} (h : Exec (Tx.program (fun _ => 100)
    [.txn ⟨[0, 1], .get 0 fun a => .get 1 fun b => .put 0 (a - 5) (.put 1 (b + 5) (.ret a)), [0, 1]⟩ fun _ => .stop,
     .txn ⟨[1, 0], .get 1 fun b => .get 0 fun a => .put 1 (b - 7) (.put 0 (a + 7) (.ret b)), [0, 1]⟩ fun _ => .stop]) as s) : ¬ Conc.Race as := by
  refine C166_transactions _ _ ?_ h
  intro c hc
  rcases List.mem_cons.1 hc with rfl | hc
  · exact ⟨⟨by decide, by simp [Tx.Body.Within], by decide⟩, fun _ => trivial⟩
  · rcases List.mem_cons.1 hc with rfl | hc
    · exact ⟨⟨by decide, by simp [Tx.Body.Within], by decide⟩, fun _ => trivial⟩
    · cases hc

-- a VecDeque as queue between goroutines
example (d : VecDeque Nat) {as : List Act} {s} (h : Exec (Shared.shared VecDeque.queueStep d
    [.call (.push 1) fun _ => .call (.push 2) fun _ => .stop, .call .pop fun _ => .stop]) as s) : ¬ Conc.Race as := C166_shared _ _ _ h

-- the jobs of the example of C153
example {as : List Act} {s : Config Int (ForkJoin.Event Int)} (h : Exec (ForkJoin.program 0 0 0 counterJobs [1, 0, 1]) as s) : ¬ Conc.Race as :=
  C166_forkJoin 0 0 0 _ _ h

-- philosophers
example {as : List Act} {s : Config Nat (Nat × Option Nat)} (h : Exec (Backoff.program (fun _ => 0) (Backoff.table 5 3)) as s) : ¬ Conc.Race as :=
  C166_backoff _ _ (fun c hc => (Backoff.table_all (by decide) 3 c hc).imp fun _ h => h.1) h
end Gost
