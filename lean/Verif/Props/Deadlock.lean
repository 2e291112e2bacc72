import Verif.Props.Transactions
/-
Property C157, exactly when a program of transactions can deadlock.
-/
namespace Gost
open Conc
namespace Tx
variable {V : Type}

/-! ### Specification -/

/-- A goroutine that waits: its number, the Mutexes it has locked, and the one it waits for. -/
structure Waiter where
  who : Nat
  held : List Nat
  wants : Nat

/-- Goroutines that are about to start transactions could wait for each other: each of them could have locked the first few Mutexes of its
transaction (no two of them the same Mutex) and want next a Mutex that one of them has locked. -/
structure Standoff (cs : List (Client V)) (ws : List Waiter) : Prop where
  anyone : ws ≠ []
  once : (ws.map Waiter.who).Nodup
  locks : ∀ w ∈ ws, ∃ t k rest, cs[w.who]? = some (.txn t k) ∧ t.locks = w.held ++ w.wants :: rest
  apart : ∀ w ∈ ws, ∀ w' ∈ ws, ∀ m, m ∈ w.held → m ∈ w'.held → w.who = w'.who
  blocked : ∀ w ∈ ws, ∃ w' ∈ ws, w.wants ∈ w'.held

/-! ### Proofs -/

variable {f0 : Nat → V} {cs0 : List (Client V)} {cl : List (CSt V)} {n : Nat} {com : Nat → V} {s s' : Config V (Nat × V)}
  {tr : List (Nat × V)} {P : Txn V → Prop}

/-- When nothing can happen, all goroutines have been started, and each has ended or waits for a locked Mutex. -/
theorem Inv.waiting (h : Inv P f0 cs0 cl n com s tr) (hn : ∀ e s', ¬ Step s e s') :
    cl.length ≤ n ∧ ∀ (j : Nat) (c : CSt V), cl[j]? = some c → c = .over ∨ ∃ held m rest t k, c = .locking held m rest t k ∧ s.locks m = true := by
  have hlen : cl.length ≤ n := by
    rcases main_instr cl n with ⟨hl, _⟩ | ⟨c, h1, h2, e⟩
    · exact hl
    · exact absurd (Step.go h.alive (i := 0) (by rw [h.procs, e]; rfl)) (hn _ _)
  refine ⟨hlen, ?_⟩
  intro j c hc
  have hlt : j < n := by
    have := (List.getElem?_eq_some_iff.1 hc).1
    omega
  have hp := get_proc h hlt hc
  have hi := instr j c
  cases hi' : c with
  | over => exact .inl rfl
  | locking held m rest t k =>
    refine .inr ⟨held, m, rest, t, k, rfl, ?_⟩
    cases hl : s.locks m with
    | true => rfl
    | false =>
      subst hi'
      cases hpr : (CSt.locking held m rest t k).proc j <;> rw [hpr] at hi hp <;> cases hi
      exact absurd (Step.lock h.alive hp hl) (hn _ _)
  | body t b k =>
    exfalso
    subst hi'
    cases hpr : (CSt.body t b k).proc j <;> rw [hpr] at hi hp <;> cases hi
    · exact hn _ _ (Step.emit h.alive hp)
    · exact hn _ _ (Step.load h.alive hp)
    · exact hn _ _ (Step.store h.alive hp)
  | unlocking u us d =>
    exfalso
    subst hi'
    cases hpr : (CSt.unlocking u us d).proc j <;> rw [hpr] at hi hp <;> cases hi
    exact hn _ _ (Step.unlock h.alive hp (h.held_locked hc))

/-- What a goroutine waits for. -/
def CSt.waiter (j : Nat) : CSt V → Option Waiter
  | .locking held m _ _ _ => some ⟨j, held, m⟩
  | _ => none

theorem waiter_some {c : CSt V} {j : Nat} {w : Waiter} (h : c.waiter j = some w) :
    ∃ rest t k, c = .locking w.held w.wants rest t k ∧ w.who = j := by
  cases c with
  | locking held m rest t k => cases h; exact ⟨_, _, _, rfl, rfl⟩
  | _ => cases h

/-- The goroutines that wait, from number `j` on. -/
def waiters : Nat → List (CSt V) → List Waiter
  | _, [] => []
  | j, c :: cl => (c.waiter j).toList ++ waiters (j + 1) cl

theorem mem_waiters {w : Waiter} : ∀ (cl : List (CSt V)) (j : Nat), w ∈ waiters j cl ↔ ∃ (i : Nat) (c : CSt V), cl[i]? = some c ∧ c.waiter (j + i) = some w
  | [], j => by simp [waiters]
  | c :: cl, j => by
    rw [waiters, List.mem_append, mem_waiters cl (j + 1), Option.mem_toList]
    constructor
    · rintro (h | ⟨i, d, h1, h2⟩)
      · exact ⟨0, c, rfl, h⟩
      · exact ⟨i + 1, d, h1, by rw [← h2]; congr 1; omega⟩
    · rintro ⟨i, d, h1, h2⟩
      cases i with
      | zero => cases h1; exact .inl h2
      | succ i => exact .inr ⟨i, d, h1, by rw [← h2]; congr 1; omega⟩

theorem waiters_nodup : ∀ (cl : List (CSt V)) (j : Nat), ((waiters j cl).map Waiter.who).Nodup
  | [], j => by simp [waiters]
  | c :: cl, j => by
    rw [waiters, List.map_append, List.nodup_append]
    refine ⟨?_, waiters_nodup cl (j + 1), ?_⟩
    · cases c.waiter j <;> simp
    · intro a ha b hb e
      subst e
      obtain ⟨w, hw, rfl⟩ := List.mem_map.1 ha
      obtain ⟨w', hw', e⟩ := List.mem_map.1 hb
      obtain ⟨i, d, _, h2⟩ := (mem_waiters cl (j + 1)).1 hw'
      obtain ⟨_, _, _, _, e1⟩ := waiter_some (Option.mem_toList.1 hw)
      obtain ⟨_, _, _, _, e2⟩ := waiter_some h2
      omega

theorem standoff_of_stuck (hI : Inv Txn.Ok f0 cs0 cl n com s tr) (hn : ∀ e s', ¬ Step s e s') (hp : ∃ p ∈ s.procs, p ≠ .done) :
    Standoff (cl.map CSt.left) (waiters 0 cl) := by
  obtain ⟨hlen, hw⟩ := hI.waiting hn
  have mem : ∀ {w : Waiter}, w ∈ waiters 0 cl ↔ ∃ rest t k, cl[w.who]? = some (.locking w.held w.wants rest t k) := by
    intro w
    rw [mem_waiters]
    constructor
    · rintro ⟨i, c, h1, h2⟩
      obtain ⟨rest, t, k, rfl, e⟩ := waiter_some h2
      rw [Nat.zero_add] at e
      exact ⟨rest, t, k, by rw [e]; exact h1⟩
    · rintro ⟨rest, t, k, h⟩
      exact ⟨_, _, h, by rw [Nat.zero_add]; rfl⟩
  refine ⟨?_, waiters_nodup cl 0, ?_, ?_, ?_⟩
  · obtain ⟨p, hp, hne⟩ := hp
    obtain ⟨i, hi⟩ := List.mem_iff_getElem?.1 hp
    rcases hI.who hi with ⟨rfl, e⟩ | ⟨j, c, rfl, hj, hc, e⟩
    · rw [List.drop_eq_nil_of_le (by simpa using hlen)] at e
      exact absurd e hne
    · rcases hw j c hc with rfl | ⟨held, m, rest, t, k, rfl, _⟩
      · exact absurd e hne
      · exact List.ne_nil_of_mem (mem.2 ⟨rest, t, k, hc⟩ : (⟨j, held, m⟩ : Waiter) ∈ _)
  · intro w h
    obtain ⟨rest, t, k, hc⟩ := mem.1 h
    exact ⟨t, k, rest, by rw [List.getElem?_map, hc]; rfl, (hI.ok _ _ hc).1.symm⟩
  · intro w h w' h' m hm hm'
    obtain ⟨rest, t, k, hc⟩ := mem.1 h
    obtain ⟨rest', t', k', hc'⟩ := mem.1 h'
    exact hI.unique _ _ _ _ m hc hc' hm hm'
  · intro w h
    obtain ⟨rest, t, k, hc⟩ := mem.1 h
    rcases hw _ _ hc with e | ⟨held, m, rest', t', k', e, hl⟩
    · cases e
    · cases e
      obtain ⟨j, c, hj, hm⟩ := (hI.locks _).1 hl
      rcases hw _ _ hj with rfl | ⟨held', m', rest', t', k', rfl, _⟩
      · cases hm
      · exact ⟨⟨j, held', m'⟩, mem.2 ⟨_, _, _, hj⟩, hm⟩

/-- The state between transactions. -/
theorem quiet_inv {cs' : List (Client V)} {g : Nat → V} (hcs : ∀ c ∈ cs', c.All Txn.Ok) (h : Serial cs0 f0 tr cs' g) :
    Inv Txn.Ok f0 cs0 (cs'.map startAt) cs'.length g (quiet g cs') tr := by
  have hI := initial (fun _ h => h) g hcs
  refine ⟨?_, rfl, rfl, hI.locks, hI.unique, hI.ok, hI.mem, hI.bodies, ?_⟩
  · have e : (cs'.map startAt).mapIdx CSt.proc = cs'.mapIdx Client.proc := by
      apply List.ext_getElem?
      intro j
      rw [List.getElem?_mapIdx, List.getElem?_mapIdx, List.getElem?_map, Option.map_map]
      cases cs'[j]? with
      | none => rfl
      | some c => simp only [Option.map_some, Function.comp, startAt_proc]
    rw [e, List.drop_eq_nil_of_le (by simp), List.take_of_length_le (by simp)]
    rfl
  · have e : (cs'.map startAt).map CSt.left = cs' := by
      rw [List.map_map]
      conv => rhs; rw [← List.map_id cs']
      exact List.map_congr_left fun c _ => startAt_left c
    rw [e]
    exact h

/-- A goroutine locks Mutexes that are free. -/
theorem Inv.advance {i : Nat} {rest : List Nat} {t : Txn V} {k : V → Client V} (hi : i < n) : ∀ (ms held : List Nat) (cl : List (CSt V)) (s : Config V (Nat × V)),
    Inv Txn.Ok f0 cs0 cl n com s tr → cl[i]? = some (lockFrom held (ms ++ rest) t k) → (∀ m ∈ ms, s.locks m = false) → ms.Nodup →
    ∃ s', Run s [] s' ∧ Inv Txn.Ok f0 cs0 (cl.set i (lockFrom (held ++ ms) rest t k)) n com s' tr ∧ ∀ m, m ∉ ms → s'.locks m = s.locks m
  | [], held, cl, s, hI, hc, _, _ => by
    refine ⟨s, .nil s, ?_, fun _ _ => rfl⟩
    rw [List.append_nil]
    rw [List.nil_append] at hc
    have e : cl.set i (lockFrom held rest t k) = cl := by
      apply List.ext_getElem?
      intro j
      by_cases hj : j = i
      · subst hj; rw [set_get hc, hc]
      · rw [List.getElem?_set_ne (Ne.symm hj)]
    rw [e]
    exact hI
  | m :: ms, held, cl, s, hI, hc, hf, hn => by
    rw [List.nodup_cons] at hn
    have hc' : cl[i]? = some (.locking held m (ms ++ rest) t k) := hc
    have hp := get_proc hI hi hc'
    have e := instr i (CSt.locking held m (ms ++ rest) t k)
    have hm := hf m List.mem_cons_self
    have hI' := hI.lock (fun _ h => h) hi hc' hm
    have st : Step s none { s.to (i + 1) ((lockFrom (held ++ [m]) (ms ++ rest) t k).proc i) with locks := upd s.locks m true } := by
      cases hpr : (CSt.locking held m (ms ++ rest) t k).proc i <;> rw [hpr] at e hp <;> cases e
      exact .lock hI.alive hp hm
    obtain ⟨s', h1, h2, h3⟩ := Inv.advance hi ms (held ++ [m]) _ _ hI' (set_get hc) (fun m' hm' => by
      show upd s.locks m true m' = false
      rw [upd, if_neg (fun e : m' = m => hn.1 (e ▸ hm'))]
      exact hf m' (List.mem_cons_of_mem _ hm')) hn.2
    refine ⟨s', ?_, ?_, ?_⟩
    · have := (Run.step (.nil s) st).trans h1
      simpa using this
    · rw [List.set_set, List.append_assoc] at h2
      exact h2
    · intro m' hm'
      rw [h3 m' fun h => hm' (List.mem_cons_of_mem _ h)]
      show upd s.locks m true m' = _
      rw [upd, if_neg fun e : m' = m => hm' (e ▸ List.mem_cons_self)]

/-- All these goroutines wait. -/
def Stand (cl : List (CSt V)) (ws : List Waiter) : Prop :=
  ∀ w ∈ ws, ∃ rest t k, cl[w.who]? = some (.locking w.held w.wants rest t k)

theorem advance_all {cs' : List (Client V)} : ∀ (ws : List Waiter), (ws.map Waiter.who).Nodup →
    (∀ w ∈ ws, ∃ t k rest, cs'[w.who]? = some (.txn t k) ∧ t.locks = w.held ++ w.wants :: rest) →
    (∀ w ∈ ws, ∀ w' ∈ ws, ∀ m, m ∈ w.held → m ∈ w'.held → w.who = w'.who) →
    ∀ (cl : List (CSt V)) (s : Config V (Nat × V)), Inv Txn.Ok f0 cs0 cl n com s tr → cl.length ≤ n →
      (∀ w ∈ ws, cl[w.who]? = cs'[w.who]?.map startAt) → (∀ w ∈ ws, ∀ m ∈ w.held, s.locks m = false) →
      ∃ cl' s', Run s [] s' ∧ Inv Txn.Ok f0 cs0 cl' n com s' tr ∧ Stand cl' ws ∧ ∀ i, i ∉ ws.map Waiter.who → cl'[i]? = cl[i]?
  | [], _, _, _, cl, s, hI, _, _, _ => ⟨cl, s, .nil s, hI, fun _ h => (by cases h), fun _ _ => rfl⟩
  | w :: ws, hn, hl, ha, cl, s, hI, hlen, hc, hf => by
    rw [List.map_cons, List.nodup_cons] at hn
    obtain ⟨t, k, rest, h1, h2⟩ := hl w List.mem_cons_self
    have hcw : cl[w.who]? = some (lockFrom [] (w.held ++ (w.wants :: rest)) t k) := by
      rw [hc w List.mem_cons_self, h1, ← h2]; rfl
    have hi : w.who < n := by
      have := (List.getElem?_eq_some_iff.1 hcw).1
      omega
    have hok : t.Ok := by
      have := hI.ok _ _ hcw
      cases hh : w.held with
      | nil => rw [hh] at this; exact this.2.1
      | cons a r => rw [hh] at this; exact this.2.1
    have hnd : w.held.Nodup := (h2 ▸ hok.nodup).sublist (List.sublist_append_left _ _)
    obtain ⟨s1, r1, hI1, hl1⟩ := hI.advance hi w.held [] cl s hcw (hf w List.mem_cons_self) hnd
    rw [List.nil_append] at hI1
    have hne : ∀ w' ∈ ws, w'.who ≠ w.who := fun w' hw' e => hn.1 (e ▸ List.mem_map_of_mem hw')
    obtain ⟨cl', s', r2, hI2, hs, ho⟩ := advance_all ws hn.2 (fun w' h => hl w' (List.mem_cons_of_mem _ h))
      (fun w1 h1 w2 h2 => ha w1 (List.mem_cons_of_mem _ h1) w2 (List.mem_cons_of_mem _ h2)) _ s1 hI1 (by simpa using hlen)
      (fun w' hw' => by rw [List.getElem?_set_ne (Ne.symm (hne w' hw'))]; exact hc w' (List.mem_cons_of_mem _ hw'))
      (fun w' hw' m hm => by
        rw [hl1 m fun hm' => hne w' hw' (ha w' (List.mem_cons_of_mem _ hw') w List.mem_cons_self m hm hm')]
        exact hf w' (List.mem_cons_of_mem _ hw') m hm)
    refine ⟨cl', s', by simpa using r1.trans r2, hI2, ?_, ?_⟩
    · intro w' hw'
      rcases List.mem_cons.1 hw' with rfl | hw'
      · exact ⟨rest, t, k, by rw [ho _ hn.1]; exact set_get hcw⟩
      · exact hs w' hw'
    · intro i hi'
      rw [List.map_cons, List.mem_cons, not_or] at hi'
      rw [ho i hi'.2, List.getElem?_set_ne (Ne.symm hi'.1)]

/-- They wait for ever. -/
theorem stand_step {ws : List Waiter} (hb : ∀ w ∈ ws, ∃ w' ∈ ws, w.wants ∈ w'.held) (hI : Inv Txn.Ok f0 cs0 cl n com s tr) (hs : Stand cl ws)
    {e : Option (Nat × V)} (st : Step s e s') : ∃ cl' n' com', Inv Txn.Ok f0 cs0 cl' n' com' s' (tr ++ e.toList) ∧ Stand cl' ws ∧ n ≤ n' := by
  obtain ⟨cl', n', com', hI', hm⟩ := hI.step (fun _ h => h) st
  refine ⟨cl', n', com', hI', ?_⟩
  cases hm with
  | main h => exact ⟨hs, by omega⟩
  | @client _ _ i c c' hc hn =>
    refine ⟨?_, Nat.le_refl _⟩
    intro w hw
    obtain ⟨rest, t, k, hcw⟩ := hs w hw
    by_cases e : w.who = i
    · exfalso
      subst e
      rw [hc] at hcw
      cases hcw
      cases hn
      obtain ⟨h1, hok, _⟩ := hI.ok _ _ hc
      have hh : (lockFrom (w.held ++ [w.wants]) rest t k).held = w.held ++ [w.wants] := lockFrom_held (by rw [← h1]; simp) k
      obtain ⟨w', hw', hmem⟩ := hb w hw
      obtain ⟨rest', t', k', hcw'⟩ := hs w' hw'
      by_cases e : w'.who = w.who
      · rw [e, hc] at hcw'
        have e1 : w.held = w'.held := by injection hcw' with hcw'; injection hcw'
        rw [← e1] at hmem
        have := hok.nodup
        rw [← h1, List.nodup_append] at this
        exact this.2.2 _ hmem _ List.mem_cons_self rfl
      · exact e (hI'.unique w'.who w.who (.locking w'.held w'.wants rest' t' k') _ w.wants (by rw [List.getElem?_set_ne (Ne.symm e)]; exact hcw') (set_get hc) hmem
          (by rw [hh]; simp))
    · exact ⟨rest, t, k, by rw [List.getElem?_set_ne (Ne.symm e)]; exact hcw⟩

theorem stand_ends {ws : List Waiter} (hne : ws ≠ []) (hb : ∀ w ∈ ws, ∃ w' ∈ ws, w.wants ∈ w'.held) :
    ∀ {s : Config V (Nat × V)}, Acc (fun t s : Config V (Nat × V) => ∃ e, Step s e t) s → ∀ {cl n com tr}, Inv Txn.Ok f0 cs0 cl n com s tr → cl.length ≤ n →
      Stand cl ws → Run (program f0 cs0) tr s → ∃ tr' s', Run (program f0 cs0) tr' s' ∧ (∀ e t, ¬ Step s' e t) ∧ ∃ p ∈ s'.procs, p ≠ .done := by
  intro s hacc
  induction hacc with
  | intro s _ ih =>
    intro cl n com tr hI hlen hs hr
    by_cases hst : ∃ e t, Step s e t
    · obtain ⟨e, t, st⟩ := hst
      obtain ⟨cl', n', com', hI', hm⟩ := hI.step (fun _ h => h) st
      obtain ⟨cl2, n2, com2, hI2, hs2, hn2⟩ := stand_step hb hI hs st
      refine ih t ⟨e, st⟩ hI2 ?_ hs2 (hr.step st)
      have e1 := hI.serial
      have e2 := hI2.serial
      have len : ∀ {cs cs' : List (Client V)} {f g : Nat → V} {tr : List (Nat × V)}, Serial cs f tr cs' g → cs'.length = cs.length := by
        intro cs cs' f g tr h
        induction h with
        | nil => rfl
        | step _ _ ih => rw [List.length_set]; exact ih
      have l1 := len e1
      have l2 := len e2
      rw [List.length_map] at l1 l2
      omega
    · refine ⟨tr, s, hr, fun e t h => hst ⟨e, t, h⟩, ?_⟩
      obtain ⟨w, hw⟩ := List.exists_mem_of_ne_nil ws hne
      obtain ⟨rest, t, k, hc⟩ := hs w hw
      have hp := get_proc hI (by have := (List.getElem?_eq_some_iff.1 hc).1; omega) hc
      refine ⟨_, List.mem_of_getElem? hp, ?_⟩
      have e := instr w.who (CSt.locking w.held w.wants rest t k)
      intro h
      rw [h] at e
      cases e

theorem acc_run {s t : Config V (Nat × V)} {tr : List (Nat × V)} (h : Acc (fun t s : Config V (Nat × V) => ∃ e, Step s e t) s) (r : Run s tr t) :
    Acc (fun t s : Config V (Nat × V) => ∃ e, Step s e t) t := by
  induction r with
  | nil => exact h
  | step _ st ih => exact ih.inv ⟨_, st⟩

theorem who_inj : ∀ {ws : List Waiter} {w w' : Waiter}, (ws.map Waiter.who).Nodup → w ∈ ws → w' ∈ ws → w.who = w'.who → w = w'
  | x :: ws, w, w', hn, h, h', e => by
    rw [List.map_cons, List.nodup_cons] at hn
    rcases List.mem_cons.1 h with h1 | h1 <;> rcases List.mem_cons.1 h' with h2 | h2
    · rw [h1, h2]
    · exact absurd (h1 ▸ e ▸ List.mem_map_of_mem h2) hn.1
    · exact absurd (h2 ▸ e ▸ List.mem_map_of_mem h1) hn.1
    · exact who_inj hn.2 h1 h2 e

theorem serial_run {f : Nat → V} {cs : List (Client V)} (hcs : ∀ c ∈ cs, c.All Txn.Ok) {tr : List (Nat × V)}
    {cs' : List (Client V)} {g : Nat → V} (h : Serial cs f tr cs' g) : (∀ c ∈ cs', c.All Txn.Ok) ∧ Run (program f cs) tr (quiet g cs') := by
  induction h with
  | nil f =>
    have r := goAll_run (cs.mapIdx Client.proc) (program f cs) [] rfl rfl
    exact ⟨hcs, by simpa [quiet, program, start] using r⟩
  | step _ hi ih =>
    obtain ⟨h1, h2⟩ := ih
    have ht := h1 _ (List.mem_of_getElem? hi)
    refine ⟨fun c hc => ?_, h2.trans (txn_run ht.1 hi)⟩
    rcases List.mem_or_eq_of_mem_set hc with h3 | h3
    · exact h1 c h3
    · rw [h3]; exact ht.2 _
end Tx

open Tx in
/-- **C157.** Exactly when a program of transactions can deadlock, that is, come to a state in which nothing can happen although some goroutine
has not ended: there is a serial execution after which some of the goroutines could each have locked the first few Mutexes of their next
transactions, no two of them the same, and want next one that another of them has locked. -/
theorem C157_deadlock_iff {V : Type} (f : Nat → V) (cs : List (Client V)) (hcs : ∀ c ∈ cs, c.All Txn.Ok) :
    (∃ tr s, Run (program f cs) tr s ∧ (∀ e s', ¬ Step s e s') ∧ ∃ p ∈ s.procs, p ≠ .done) ↔
    ∃ tr cs' g, Serial cs f tr cs' g ∧ ∃ ws, Standoff cs' ws := by
  constructor
  · rintro ⟨tr, s, hr, hn, hp⟩
    obtain ⟨cl, n, com, hI⟩ := run_inv (fun _ h => h) hcs hr
    exact ⟨tr, _, _, hI.serial, _, standoff_of_stuck hI hn hp⟩
  · rintro ⟨tr, cs', g, hser, ws, hw⟩
    obtain ⟨hcs', hr⟩ := serial_run hcs hser
    have hI := quiet_inv hcs' hser
    obtain ⟨cl, s, r, hI2, hst, ho⟩ := advance_all (cs' := cs') ws hw.once hw.locks hw.apart _ _ hI (by simp)
      (fun w _ => by rw [List.getElem?_map]) (fun _ _ _ _ => rfl)
    have hr2 : Run (program f cs) tr s := by simpa using hr.trans r
    refine stand_ends hw.anyone hw.blocked (acc_run (C157_terminates f cs hcs) hr2) hI2 ?_ hst hr2
    have len : ∀ {cs cs' : List (Client V)} {f g : Nat → V} {tr : List (Nat × V)}, Serial cs f tr cs' g → cs'.length = cs.length := by
      intro cs cs' f g tr h
      induction h with
      | nil => rfl
      | step _ _ ih => rw [List.length_set]; exact ih
    have l1 := len hI2.serial
    have l2 := len hser
    rw [List.length_map] at l1
    omega

open Tx in
/-- **C157.** Another way to avoid deadlocks than a ranking: if every transaction starts by locking the same Mutex `g`, the order of the other
Locks does not matter. -/
theorem C157_gate {V : Type} (g : Nat) (f : Nat → V) (cs : List (Client V)) (hcs : ∀ c ∈ cs, c.All fun t => t.Ok ∧ (t.locks = [] ∨ ∃ ms, t.locks = g :: ms))
    {tr : List (Nat × V)} {s : Config V (Nat × V)} (h : Run (program f cs) tr s) (hn : ∀ e s', ¬ Step s e s') : ∀ p ∈ s.procs, p = .done := by
  have imp : ∀ c : Client V, (c.All fun t => t.Ok ∧ (t.locks = [] ∨ ∃ ms, t.locks = g :: ms)) → c.All Txn.Ok := by
    intro c
    induction c with
    | stop => intro _; trivial
    | txn t k ih => exact fun h => ⟨h.1.1, fun v => ih v (h.2 v)⟩
  intro p hp
  by_cases hd : p = .done
  · exact hd
  exfalso
  obtain ⟨tr', cs', g', hs, ws, hw⟩ := (C157_deadlock_iff f cs fun c hc => imp c (hcs c hc)).1 ⟨tr, s, h, hn, p, hp, hd⟩
  have hcs' : ∀ c ∈ cs', c.All fun t => t.Ok ∧ (t.locks = [] ∨ ∃ ms, t.locks = g :: ms) := by
    clear hw hn h hp
    induction hs with
    | nil => exact hcs
    | step _ hi ih =>
      intro c hc
      rcases List.mem_or_eq_of_mem_set hc with h3 | h3
      · exact ih c h3
      · rw [h3]; exact (ih _ (List.mem_of_getElem? hi)).2 _
  -- who has locked anything has locked g
  have first : ∀ w ∈ ws, ∀ m ∈ w.held, g ∈ w.held := by
    intro w hm m hmem
    obtain ⟨t, k, rest, h1, h2⟩ := hw.locks w hm
    rcases (hcs' _ (List.mem_of_getElem? h1)).1.2 with e | ⟨ms, e⟩
    · rw [e] at h2; cases hh : w.held <;> rw [hh] at h2 <;> cases h2
    · rw [e] at h2
      cases hh : w.held with
      | nil => rw [hh] at hmem; cases hmem
      | cons a r => rw [hh] at h2; cases h2; exact List.mem_cons_self
  obtain ⟨w, hm⟩ := List.exists_mem_of_ne_nil ws hw.anyone
  obtain ⟨w1, hm1, h1⟩ := hw.blocked w hm
  obtain ⟨w2, hm2, h2⟩ := hw.blocked w1 hm1
  have e := hw.apart w1 hm1 w2 hm2 g (first w1 hm1 _ h1) (first w2 hm2 _ h2)
  have e : w1 = w2 := who_inj hw.once hm1 hm2 e
  subst e
  obtain ⟨t, k, rest, h3, h4⟩ := hw.locks w1 hm1
  have hnd := (hcs' _ (List.mem_of_getElem? h3)).1.1.nodup
  rw [h4, List.nodup_append] at hnd
  exact hnd.2.2 _ h2 _ List.mem_cons_self rfl

open Tx in
-- three goroutines that lock Mutexes 0, 1 and 2 in a circle: a deadlock is possible, because of this standoff
example (f : Nat → Nat) : ∃ tr s, Run (program f
    [.txn ⟨[0, 1], .ret 0, [0, 1]⟩ fun _ => .stop, .txn ⟨[1, 2], .ret 0, [1, 2]⟩ fun _ => .stop, .txn ⟨[2, 0], .ret 0, [2, 0]⟩ fun _ => .stop]) tr s ∧
    (∀ e s', ¬ Step s e s') ∧ ∃ p ∈ s.procs, p ≠ .done := by
  refine (C157_deadlock_iff f _ ?_).2 ⟨[], _, f, .nil _ _, [⟨0, [0], 1⟩, ⟨1, [1], 2⟩, ⟨2, [2], 0⟩], ?_⟩
  · intro c hc
    simp only [List.mem_cons, List.not_mem_nil, or_false] at hc
    rcases hc with rfl | rfl | rfl <;> exact ⟨⟨by decide, trivial, by decide⟩, fun _ => trivial⟩
  · refine ⟨by simp, by decide, ?_, ?_, ?_⟩
    · intro w hw
      simp only [List.mem_cons, List.not_mem_nil, or_false] at hw
      rcases hw with rfl | rfl | rfl <;> exact ⟨_, _, [], rfl, rfl⟩
    · intro w hw w' hw' m hm hm'
      simp only [List.mem_cons, List.not_mem_nil, or_false] at hw hw'
      rcases hw with rfl | rfl | rfl <;> rcases hw' with rfl | rfl | rfl <;> simp_all
    · intro w hw
      simp only [List.mem_cons, List.not_mem_nil, or_false] at hw
      rcases hw with rfl | rfl | rfl
      · exact ⟨⟨1, [1], 2⟩, by simp, by simp⟩
      · exact ⟨⟨2, [2], 0⟩, by simp, by simp⟩
      · exact ⟨⟨0, [0], 1⟩, by simp, by simp⟩

open Tx in
-- the same circle behind a gate
example (f : Nat → Nat) {tr s} (h : Run (program f
    [.txn ⟨[9, 0, 1], .ret 0, [0, 1, 9]⟩ fun _ => .stop, .txn ⟨[9, 1, 0], .ret 0, [9, 1, 0]⟩ fun _ => .stop]) tr s)
    (hn : ∀ e s', ¬ Step s e s') : ∀ p ∈ s.procs, p = .done := by
  refine C157_gate 9 f _ ?_ h hn
  intro c hc
  simp only [List.mem_cons, List.not_mem_nil, or_false] at hc
  rcases hc with rfl | rfl <;> exact ⟨⟨⟨by decide, trivial, by decide⟩, .inr ⟨_, rfl⟩⟩, fun _ => trivial⟩
end Gost
