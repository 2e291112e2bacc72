import Verif.Model.Thread
/-
Property C161: the data given to gokio.Write.
-/
namespace Gost
open Conc
namespace TaskData
variable {V : Type}

/-! ### Programs -/

/-- fs.go:42-44, the loop of Write over `data`: the elements of the slice are the variables `as`, read one after another. -/
def readAll : List Nat → List V → (List V → Proc V (List V)) → Proc V (List V)
  | [], acc, k => k acc
  | a :: as, acc, k => .load a fun x => readAll as (acc ++ [x]) k

/-- fs.go:31-53 Write as far as it concerns `data`: copy the elements, then write the copy, which is shown as an event.  (Opening the file
and its errors are left out: see C142.) -/
def write (as : List Nat) (ok : V) (ret : V → Proc V (List V)) : Proc V (List V) :=
  readAll as [] fun casted => .emit casted (ret ok)

/-- Assignments `data[i] = v`, by the addresses of the elements. -/
def storeAll : List (Nat × V) → Proc V (List V) → Proc V (List V)
  | [], k => k
  | (a, v) :: ws, k => .store a v (storeAll ws k)

/-- gokio/fs.go:22-26 Write, used so: `f := gokio.Write(path, data)`, the assignments `ws`, `f.Await()`, the assignments `more`. -/
def program (f : Nat → V) (as : List Nat) (ok : V) (ws more : List (Nat × V)) : Config V (List V) :=
  start f (Gokio.spawn (write as ok) fun fut => storeAll ws (Gokio.await ok fut fun _ => storeAll more .done))

/-! ### Specification -/

/-- What a reader of the elements `as` may get while the assignments `ws` are made one after another: at any time either the next element is
read, as it is then, or the next assignment is made. -/
inductive Sampled : (Nat → V) → List (Nat × V) → List Nat → List V → Prop
  | stop (f : Nat → V) (ws : List (Nat × V)) : Sampled f ws [] []
  | read (f : Nat → V) (ws : List (Nat × V)) (a : Nat) (as : List Nat) (bytes : List V) (h : Sampled f ws as bytes) :
      Sampled f ws (a :: as) (f a :: bytes)
  | assign (f : Nat → V) (a : Nat) (v : V) (ws : List (Nat × V)) (as : List Nat) (bytes : List V) (h : Sampled (upd f a v) ws as bytes) :
      Sampled f ((a, v) :: ws) as bytes

/-- The variables after some assignments. -/
def assigned (f : Nat → V) : List (Nat × V) → Nat → V
  | [] => f
  | (a, v) :: ws => assigned (upd f a v) ws

/-! ### Proofs -/

/-- What the task is about to do; `sent`: it has passed its result on.  `G rest acc`: it may still have `rest` to read with `acc` read. -/
inductive TaskAt (ok : V) (G : List Nat → List V → Prop) (F : List V → Prop) : Proc V (List V) → Bool → List (List V) → Prop
  | reading (rest : List Nat) (acc : List V) (hm : G rest acc) :
      TaskAt ok G F (readAll rest acc fun casted => .emit casted (.send 0 ok (.close 0 .done))) false []
  | sending (bytes : List V) (hm : F bytes) : TaskAt ok G F (.send 0 ok (.close 0 .done)) false [bytes]
  | parked (bytes : List V) (hm : F bytes) : TaskAt ok G F (.parked 0 ok (.close 0 .done)) false [bytes]
  | closing (bytes : List V) (hm : F bytes) : TaskAt ok G F (.close 0 .done) true [bytes]
  | over (bytes : List V) (hm : F bytes) : TaskAt ok G F .done true [bytes]

theorem TaskAt.mono {ok : V} {G G' : List Nat → List V → Prop} {F : List V → Prop} {p : Proc V (List V)} {b : Bool}
    {tr : List (List V)} (h : TaskAt ok G F p b tr) (hg : b = false → ∀ rest acc, G rest acc → G' rest acc) : TaskAt ok G' F p b tr := by
  cases h with
  | reading rest acc hm => exact .reading rest acc (hg rfl rest acc hm)
  | sending bytes hm => exact .sending bytes hm
  | parked bytes hm => exact .parked bytes hm
  | closing bytes hm => exact .closing bytes hm
  | over bytes hm => exact .over bytes hm

/-- What main is about to do, with the assignments to come; the flag tells whether Await has returned. -/
inductive MainAt (more : List (Nat × V)) : List (Nat × V) → Proc V (List V) → Bool → Prop
  | before (post : List (Nat × V)) : MainAt more post (storeAll post (.recv 0 fun _ => storeAll more .done)) false
  | after (post : List (Nat × V)) : MainAt more post (storeAll post .done) true

/-- What is read from now on makes a sample of the whole. -/
def Good (f : Nat → V) (as : List Nat) (ws : List (Nat × V)) (vars : Nat → V) (post : List (Nat × V)) (rest : List Nat) (acc : List V) :
    Prop :=
  ∀ later : List V, Sampled vars post rest later → Sampled f ws as (acc ++ later)

inductive Inv (f : Nat → V) (as : List Nat) (ok : V) (ws more : List (Nat × V)) : Config V (List V) → List (List V) → Prop
  | first : Inv f as ok ws more (program f as ok ws more) []
  | second (s : Config V (List V)) (hs : s.procs = [.go (write as ok fun v => .send 0 v (.close 0 .done))
        (storeAll ws (.recv 0 fun _ => storeAll more .done))]) (hch : s.chans = [⟨0, [], false⟩]) (hc : s.crashed = false)
        (hv : s.vars = f) : Inv f as ok ws more s []
  | both (s : Config V (List V)) (main task : Proc V (List V)) (post : List (Nat × V)) (b closed : Bool) (tr : List (List V))
      (hs : s.procs = [main, task]) (hch : s.chans = [⟨0, [], closed⟩]) (hc : s.crashed = false) (hm : MainAt more post main b)
      (ht : TaskAt ok (Good f as ws s.vars post) (Sampled f ws as) task b tr) (hcl : closed = true → task = .done) :
      Inv f as ok ws more s tr

theorem who {s : Config V (List V)} {m t p : Proc V (List V)} {i : Nat} (hs : s.procs = [m, t]) (h : s.procs[i]? = some p) :
    (i = 0 ∧ p = m) ∨ (i = 1 ∧ p = t) := by
  rw [hs] at h
  match i, h with
  | 0, h => exact .inl ⟨rfl, by simpa using h.symm⟩
  | 1, h => exact .inr ⟨rfl, by simpa using h.symm⟩

/-- The instructions of the task. -/
inductive TI (ok : V) (G : List Nat → List V → Prop) (F : List V → Prop) : Proc V (List V) → Bool → List (List V) → Prop
  | load (rest : List Nat) (a : Nat) (acc : List V) (hm : G (a :: rest) acc) :
      TI ok G F (.load a fun x => readAll rest (acc ++ [x]) fun casted => .emit casted (.send 0 ok (.close 0 .done))) false []
  | emit (acc : List V) (hm : G [] acc) : TI ok G F (.emit acc (.send 0 ok (.close 0 .done))) false []
  | sending (bytes : List V) (hm : F bytes) : TI ok G F (.send 0 ok (.close 0 .done)) false [bytes]
  | parked (bytes : List V) (hm : F bytes) : TI ok G F (.parked 0 ok (.close 0 .done)) false [bytes]
  | closing (bytes : List V) (hm : F bytes) : TI ok G F (.close 0 .done) true [bytes]
  | over (bytes : List V) (hm : F bytes) : TI ok G F .done true [bytes]

theorem TaskAt.instr {ok : V} {G : List Nat → List V → Prop} {F : List V → Prop} {p : Proc V (List V)} {b : Bool}
    {tr : List (List V)} (h : TaskAt ok G F p b tr) : TI ok G F p b tr := by
  cases h with
  | reading rest acc hm =>
    cases rest with
    | nil => exact .emit acc hm
    | cons a rest => exact .load rest a acc hm
  | sending bytes hm => exact .sending bytes hm
  | parked bytes hm => exact .parked bytes hm
  | closing bytes hm => exact .closing bytes hm
  | over bytes hm => exact .over bytes hm

/-- The instructions of main. -/
inductive MI (more : List (Nat × V)) : List (Nat × V) → Proc V (List V) → Bool → Prop
  | store (a : Nat) (v : V) (post : List (Nat × V)) :
      MI more ((a, v) :: post) (.store a v (storeAll post (.recv 0 fun _ => storeAll more .done))) false
  | await : MI more [] (.recv 0 fun _ => storeAll more .done) false
  | storeAfter (a : Nat) (v : V) (post : List (Nat × V)) : MI more ((a, v) :: post) (.store a v (storeAll post .done)) true
  | over : MI more [] .done true

theorem MainAt.instr {more post : List (Nat × V)} {p : Proc V (List V)} {b : Bool} (h : MainAt more post p b) : MI more post p b := by
  cases h with
  | before =>
    match post with
    | [] => exact .await
    | (a, v) :: post => exact .store a v post
  | after =>
    match post with
    | [] => exact .over
    | (a, v) :: post => exact .storeAfter a v post

theorem Inv.step {f : Nat → V} {as : List Nat} {ok : V} {ws more : List (Nat × V)} {s s' : Config V (List V)} {tr : List (List V)}
    {e : Option (List V)} (h : Inv f as ok ws more s tr) (st : Step s e s') : Inv f as ok ws more s' (tr ++ e.toList) := by
  cases h with
  | first =>
    have key : ∀ {i : Nat} {p : Proc V (List V)}, (program f as ok ws more).procs[i]? = some p → i = 0 ∧
        p = .make 0 fun ch => .go (write as ok fun v => .send ch v (.close ch .done))
          (storeAll ws (.recv ch fun _ => storeAll more .done)) := by
      intro i p hp
      match i, hp with
      | 0, hp => exact ⟨rfl, (Option.some.inj hp).symm⟩
    cases st with
    | make hc hp =>
      obtain ⟨rfl, e⟩ := key hp
      cases e
      exact .second _ rfl rfl rfl rfl
    | emit _ hp | go _ hp | unlock _ hp _ | unlockFree _ hp _ | load _ hp | store _ hp | tau _ hp | lock _ hp _ | tryLock _ hp _ | tryLockFails _ hp _ =>
      cases (key hp).2
    | park _ hp _ _ | meet _ _ hp _ _ _ | meetPoll _ _ hp _ _ _ | recvBuf _ hp _ _ | pollBuf _ hp _ _ | recvClosed _ hp _ _ _ | pollClosed _ hp _ _ _ | pollDefault _ hp _ _ _ _ | close _ hp _ _ | closeClosed _ hp _ _ =>
      cases (key hp).2
    | sendBuf _ _ hch _ _ | sendClosed _ _ hch _ => cases hch
  | second s hs hch hc hv =>
    have key : ∀ {i : Nat} {p : Proc V (List V)}, s.procs[i]? = some p → i = 0 ∧
        p = .go (write as ok fun v => .send 0 v (.close 0 .done)) (storeAll ws (.recv 0 fun _ => storeAll more .done)) := by
      intro i p hp
      rw [hs] at hp
      match i, hp with
      | 0, hp => exact ⟨rfl, (Option.some.inj hp).symm⟩
    cases st with
    | go _ hp =>
      obtain ⟨rfl, e⟩ := key hp
      cases e
      refine .both _ (storeAll ws (.recv 0 fun _ => storeAll more .done)) (write as ok fun v => .send 0 v (.close 0 .done)) ws false false _
        (by rw [hs]; rfl) hch hc (.before ws) (.reading as [] fun later h => by rw [hv] at h; exact h) (by simp)
    | emit _ hp | make _ hp | unlock _ hp _ | unlockFree _ hp _ | load _ hp | store _ hp | tau _ hp | lock _ hp _ | tryLock _ hp _ | tryLockFails _ hp _ =>
      cases (key hp).2
    | park _ hp _ _ | meet _ _ hp _ _ _ | meetPoll _ _ hp _ _ _ | recvBuf _ hp _ _ | pollBuf _ hp _ _ | recvClosed _ hp _ _ _ | pollClosed _ hp _ _ _ | pollDefault _ hp _ _ _ _ | close _ hp _ _ | closeClosed _ hp _ _ =>
      cases (key hp).2
    | sendBuf _ hp _ _ _ | sendClosed _ hp _ _ => cases hp with
      | fresh hp => cases (key hp).2
      | waiting hp => cases (key hp).2
  | both s main task post b closed tr hs hch hc hm ht hcl =>
    have hmi := hm.instr
    have hti := ht.instr
    cases st with
    | @emit i acc k _ hp =>
      rcases who hs hp with ⟨rfl, rfl⟩ | ⟨rfl, rfl⟩
      · cases hmi
      · cases hti with
        | emit _ hx =>
          exact .both _ main (.send 0 ok (.close 0 .done)) post false closed _ (by simp [Config.to, hs]) hch hc hm
            (.sending acc (by simpa using hx [] (.stop _ _))) (fun h => by cases hcl h)
    | @load i a k _ hp =>
      rcases who hs hp with ⟨rfl, rfl⟩ | ⟨rfl, rfl⟩
      · cases hmi
      · cases hti with
        | load rest _ acc hx =>
          simp only [Option.toList, List.append_nil]
          refine .both _ main _ post false closed _ (by simp [Config.to, hs]) hch hc hm
            (.reading rest (acc ++ [s.vars a]) fun later h => ?_) (fun h => by cases hcl h)
          simpa using hx _ (.read _ _ a _ _ h)
    | @store i a v k _ hp =>
      simp only [Option.toList, List.append_nil]
      rcases who hs hp with ⟨rfl, rfl⟩ | ⟨rfl, rfl⟩
      · cases hmi with
        | store _ _ post =>
          exact .both _ (storeAll post (.recv 0 fun _ => storeAll more .done)) task post false closed _ (by simp [Config.to, hs]) hch hc (.before post)
            (ht.mono fun _ rest acc hg later h => hg later (.assign _ a v _ _ _ h)) hcl
        | storeAfter _ _ post =>
          exact .both _ (storeAll post .done) task post true closed _ (by simp [Config.to, hs]) hch hc (.after post) (ht.mono (by simp)) hcl
      · cases hti
    | park _ hp hc1 hc2 =>
      simp only [Option.toList, List.append_nil]
      rcases who hs hp with ⟨rfl, rfl⟩ | ⟨rfl, rfl⟩
      · cases hmi
      · cases hti with
        | sending bytes hx =>
          exact .both _ main (.parked 0 ok (.close 0 .done)) post false closed _ (by simp [Config.to, hs]) hch hc hm (.parked bytes hx)
            (fun h => by cases hcl h)
    | @meet i j c v k r ch _ hsnd hr hc1 hc2 hb =>
      simp only [Option.toList, List.append_nil]
      rcases who hs hr with ⟨rfl, rfl⟩ | ⟨rfl, rfl⟩
      · cases hmi with
        | await =>
          cases hsnd with
          | fresh hp =>
            rcases who hs hp with ⟨rfl, h⟩ | ⟨rfl, rfl⟩
            · cases h
            · cases hti with
              | sending bytes hx =>
                exact .both _ (storeAll more .done) (.close 0 .done) more true closed _ (by simp [Config.to, hs]) hch hc (.after more)
                  (.closing bytes hx) (fun h => by cases hcl h)
          | waiting hp =>
            rcases who hs hp with ⟨rfl, h⟩ | ⟨rfl, rfl⟩
            · cases h
            · cases hti with
              | parked bytes hx =>
                exact .both _ (storeAll more .done) (.close 0 .done) more true closed _ (by simp [Config.to, hs]) hch hc (.after more)
                  (.closing bytes hx) (fun h => by cases hcl h)
      · cases hti
    | @close i c k ch _ hp hc1 hc2 =>
      simp only [Option.toList, List.append_nil]
      rcases who hs hp with ⟨rfl, rfl⟩ | ⟨rfl, rfl⟩
      · cases hmi
      · cases hti with
        | closing bytes hx =>
          refine .both _ main .done post true true _ (by simp [Config.to, hs]) ?_ hc hm (.over bytes hx) (fun _ => rfl)
          rw [hch] at hc1 ⊢
          simp only [List.getElem?_cons_zero, Option.some.injEq] at hc1
          subst hc1
          rfl
    | @closeClosed i c k ch _ hp hc1 hc2 =>
      rcases who hs hp with ⟨rfl, rfl⟩ | ⟨rfl, rfl⟩
      · cases hmi
      · cases hti with
        | closing bytes hx =>
          rw [hch] at hc1
          simp only [List.getElem?_cons_zero, Option.some.injEq] at hc1
          subst hc1
          cases hcl hc2
    | @sendClosed i c v k ch _ hsnd hc1 hc2 =>
      cases hsnd with
      | fresh hp =>
        rcases who hs hp with ⟨rfl, rfl⟩ | ⟨rfl, rfl⟩
        · cases hmi
        · cases hti with
          | sending bytes hx =>
            rw [hch] at hc1
            simp only [List.getElem?_cons_zero, Option.some.injEq] at hc1
            subst hc1
            cases hcl hc2
      | waiting hp =>
        rcases who hs hp with ⟨rfl, rfl⟩ | ⟨rfl, rfl⟩
        · cases hmi
        · cases hti with
          | parked bytes hx =>
            rw [hch] at hc1
            simp only [List.getElem?_cons_zero, Option.some.injEq] at hc1
            subst hc1
            cases hcl hc2
    | @sendBuf i c v k ch _ hsnd hc1 hc2 hb =>
      rw [hch] at hc1
      match c, hc1 with
      | 0, hc1 =>
        simp only [List.getElem?_cons_zero, Option.some.injEq] at hc1
        subst hc1
        simp at hb
    | @recvBuf j c r v b' ch _ hp hc1 hb =>
      rw [hch] at hc1
      match c, hc1 with
      | 0, hc1 =>
        simp only [List.getElem?_cons_zero, Option.some.injEq] at hc1
        subst hc1
        simp at hb
    | @recvClosed j c r ch _ hp hc1 hc2 hb =>
      rcases who hs hp with ⟨rfl, rfl⟩ | ⟨rfl, rfl⟩
      · cases hmi with
        | await =>
          rw [hch] at hc1
          simp only [List.getElem?_cons_zero, Option.some.injEq] at hc1
          subst hc1
          rw [hcl hc2] at hti
          cases hti
      · cases hti
    | go _ hp | make _ hp | unlock _ hp _ | unlockFree _ hp _ | tau _ hp | lock _ hp _ | tryLock _ hp _ | tryLockFails _ hp _ | meetPoll _ _ hp _ _ _ | pollBuf _ hp _ _ | pollClosed _ hp _ _ _ | pollDefault _ hp _ _ _ _ =>
      rcases who hs hp with ⟨rfl, rfl⟩ | ⟨rfl, rfl⟩
      · cases hmi
      · cases hti

theorem Inv.run {f : Nat → V} {as : List Nat} {ok : V} {ws more : List (Nat × V)} {s : Config V (List V)} {tr : List (List V)}
    (h : Run (program f as ok ws more) tr s) : Inv f as ok ws more s tr := by
  generalize hs0 : program f as ok ws more = s0 at h
  induction h with
  | nil => subst hs0; exact .first
  | step _ st ih => subst hs0; exact Inv.step ih st

/-- From the moment both goroutines run, every sample can be written. -/
theorem Sampled.run {vars : Nat → V} {post : List (Nat × V)} {rest : List Nat} {bytes : List V} (h : Sampled vars post rest bytes) :
    ∀ (acc : List V) (K : Proc V (List V)) (R : List V → Proc V (List V)) (s : Config V (List V)), s.crashed = false → s.vars = vars →
      s.procs = [storeAll post K, readAll rest acc fun casted => .emit casted (R casted)] → ∃ s', Run s [acc ++ bytes] s' := by
  induction h with
  | stop f ws =>
    intro acc K R s hc _ hs
    rw [List.append_nil]
    exact ⟨_, Run.one (Step.emit (i := 1) (e := acc) (k := R acc) hc (by rw [hs]; rfl))⟩
  | read f ws a as bytes _ ih =>
    intro acc K R s hc hv hs
    have st : Step s none (s.to 1 (readAll as (acc ++ [s.vars a]) fun casted => .emit casted (R casted))) :=
      Step.load (i := 1) (a := a) (k := fun x => readAll as (acc ++ [x]) fun casted => .emit casted (R casted)) hc (by rw [hs]; rfl)
    obtain ⟨s', r⟩ := ih (acc ++ [s.vars a]) K R
      (s.to 1 (readAll as (acc ++ [s.vars a]) fun casted => .emit casted (R casted))) hc hv (by simp [Config.to, hs])
    rw [List.append_assoc] at r
    subst hv
    exact ⟨s', (Run.one st).trans r⟩
  | assign f a v ws as bytes _ ih =>
    intro acc K R s hc hv hs
    have st := Step.store (i := 0) (a := a) (v := v) (k := storeAll ws K) hc (by rw [hs]; rfl)
    obtain ⟨s', r⟩ := ih acc K R { s.to 0 (storeAll ws K) with vars := upd s.vars a v } hc (by rw [← hv]) (by simp [Config.to, hs])
    exact ⟨s', (Run.one st).trans r⟩

theorem Sampled.all (f : Nat → V) (ws : List (Nat × V)) (as : List Nat) : Sampled f ws as (as.map (assigned f ws)) := by
  induction ws generalizing f with
  | nil =>
    induction as with
    | nil => exact .stop f []
    | cons a as ih => exact .read f [] a as _ ih
  | cons w ws ih => exact .assign f w.1 w.2 ws as _ (ih _)

theorem Sampled.untouched {f : Nat → V} {ws : List (Nat × V)} {as : List Nat} {bytes : List V} (h : Sampled f ws as bytes)
    (hw : ∀ w ∈ ws, w.1 ∉ as) : bytes = as.map f := by
  induction h with
  | stop => rfl
  | read f ws a as bytes _ ih =>
    rw [ih fun w h hm => hw w h (List.mem_cons_of_mem _ hm)]
    rfl
  | assign f a v ws as bytes _ ih =>
    rw [ih fun w h => hw w (List.mem_cons_of_mem _ h)]
    refine List.map_congr_left fun x hx => ?_
    have : x ≠ a := fun e => hw (a, v) (List.mem_cons_self ..) (e ▸ hx)
    simp [upd, this]

/-- Every element of a sample is one that was there at the start or assigned to it since. -/
theorem Sampled.mixture {f : Nat → V} {ws : List (Nat × V)} {as : List Nat} {bytes : List V} (h : Sampled f ws as bytes) :
    bytes.length = as.length ∧ ∀ (i a : Nat) (b : V), as[i]? = some a → bytes[i]? = some b → b = f a ∨ (a, b) ∈ ws := by
  induction h with
  | stop => exact ⟨rfl, by simp⟩
  | read f ws a as bytes _ ih =>
    refine ⟨by simp [ih.1], fun i x b hx hb => ?_⟩
    match i, hx, hb with
    | 0, hx, hb =>
      simp at hx hb
      exact .inl (by rw [← hx, ← hb])
    | i + 1, hx, hb => exact ih.2 i x b (by simpa using hx) (by simpa using hb)
  | assign f a v ws as bytes _ ih =>
    refine ⟨ih.1, fun i x b hx hb => ?_⟩
    rcases ih.2 i x b hx hb with h | h
    · by_cases e : x = a
      · rw [upd, if_pos e] at h
        exact .inr (by rw [e, h]; exact List.mem_cons_self ..)
      · rw [upd, if_neg e] at h
        exact .inl h
    · exact .inr (List.mem_cons_of_mem _ h)
end TaskData
open TaskData

variable {V : Type}

/-- **C161.** What gokio.Write may write, exactly: `bytes` is written in some execution of `f := gokio.Write(path, data)`, the assignments
`ws` to elements of `data`, `f.Await()`, further assignments, just when the elements can be read as `bytes`, in their order, while the
assignments `ws` are made in theirs.  So the slice is not copied by the call. -/
theorem C161_exact (f : Nat → V) (as : List Nat) (ok : V) (ws more : List (Nat × V)) (bytes : List V) :
    (∃ s, Run (program f as ok ws more) [bytes] s) ↔ Sampled f ws as bytes := by
  constructor
  · rintro ⟨s, h⟩
    have := Inv.run h
    cases this with
    | both _ main task post b closed _ hs hch hc hm ht hcl =>
      cases ht with
      | sending _ hx | parked _ hx | closing _ hx | over _ hx => exact hx
  · intro h
    have s1 : Step (program f as ok ws more) none _ := Step.make (i := 0) rfl rfl
    have s2 := Step.go (s := { (program f as ok ws more).to 0 (.go (write as ok fun v => .send 0 v (.close 0 .done))
      (storeAll ws (.recv 0 fun _ => storeAll more .done))) with chans := [⟨0, [], false⟩] }) (i := 0) rfl rfl
    obtain ⟨s', r⟩ := h.run [] (.recv 0 fun _ => storeAll more .done) (fun _ => .send 0 ok (.close 0 .done))
      (⟨[storeAll ws (.recv 0 fun _ => storeAll more .done), write as ok fun v => .send 0 v (.close 0 .done)], [⟨0, [], false⟩],
        fun _ => false, f, false⟩ : Config V (List V)) rfl rfl rfl
    exact ⟨s', ((Run.one s1).trans (Run.one s2)).trans r⟩

/-- **C161.** In every execution the program does not crash, at most one write happens, what is written has the length of `data`, and each
of its elements is the one at the call or one assigned to it before Await returned.  Assignments after Await never show. -/
theorem C161_mixture (f : Nat → V) (as : List Nat) (ok : V) (ws more : List (Nat × V)) (tr : List (List V)) (s : Config V (List V))
    (h : Run (program f as ok ws more) tr s) : s.crashed = false ∧ tr.length ≤ 1 ∧ ∀ bytes ∈ tr, bytes.length = as.length ∧
      ∀ (i a : Nat) (b : V), as[i]? = some a → bytes[i]? = some b → b = f a ∨ (a, b) ∈ ws := by
  have := Inv.run h
  cases this with
  | first => exact ⟨rfl, by simp, by simp⟩
  | second _ hs hch hc hv => exact ⟨hc, by simp, by simp⟩
  | both _ main task post b closed _ hs hch hc hm ht hcl =>
    cases ht with
    | reading => exact ⟨hc, by simp, by simp⟩
    | sending _ hx | parked _ hx | closing _ hx | over _ hx =>
      refine ⟨hc, by simp, fun bytes hb => ?_⟩
      rw [List.mem_singleton] at hb
      subst hb
      exact hx.mixture

/-- **C161.** If the elements of `data` are not assigned before Await, the file gets what `data` held at the call, whatever else is assigned
and whatever is assigned later. -/
theorem C161_kept_partial (f : Nat → V) (as : List Nat) (ok : V) (ws more : List (Nat × V)) (hw : ∀ w ∈ ws, w.1 ∉ as)
    (tr : List (List V)) (s : Config V (List V)) (h : Run (program f as ok ws more) tr s) : ∀ bytes ∈ tr, bytes = as.map f := by
  intro bytes hb
  have := Inv.run h
  cases this with
  | first | second _ hs hch hc hv => simp at hb
  | both _ main task post b closed _ hs hch hc hm ht hcl =>
    cases ht with
    | reading => simp at hb
    | sending _ hx | parked _ hx | closing _ hx | over _ hx =>
      rw [List.mem_singleton] at hb
      subst hb
      exact hx.untouched hw

/-- **C161.** It is never stuck: an execution can go on, or both goroutines have ended and the write has happened. -/
theorem C161_finishes (f : Nat → V) (as : List Nat) (ok : V) (ws more : List (Nat × V)) (tr : List (List V)) (s : Config V (List V))
    (h : Run (program f as ok ws more) tr s) : (∃ e s', Step s e s') ∨ ((∀ p ∈ s.procs, p = .done) ∧ tr.length = 1) := by
  have := Inv.run h
  cases this with
  | first => exact .inl ⟨_, _, Step.make (i := 0) rfl rfl⟩
  | second _ hs hch hc hv => exact .inl ⟨_, _, Step.go (i := 0) hc (by rw [hs]; rfl)⟩
  | both _ main task post b closed _ hs hch hc hm ht hcl =>
    have h0 : s.procs[0]? = some main := by rw [hs]; rfl
    have h1 : s.procs[1]? = some task := by rw [hs]; rfl
    have hch0 : s.chans[0]? = some ⟨0, [], closed⟩ := by rw [hch]; rfl
    have hmi := hm.instr
    cases ht.instr with
    | load rest a acc hx => exact .inl ⟨_, _, Step.load hc h1⟩
    | emit acc hx => exact .inl ⟨_, _, Step.emit hc h1⟩
    | sending bytes hx =>
      refine .inl ⟨_, _, Step.park hc h1 hch0 ?_⟩
      cases closed with
      | false => rfl
      | true => cases hcl rfl
    | parked bytes hx =>
      cases hmi with
      | store a v post => exact .inl ⟨_, _, Step.store hc h0⟩
      | await =>
        refine .inl ⟨_, _, Step.meet hc (.waiting h1) h0 hch0 ?_ rfl⟩
        cases closed with
        | false => rfl
        | true => cases hcl rfl
    | closing bytes hx =>
      refine .inl ⟨_, _, Step.close hc h1 hch0 ?_⟩
      cases closed with
      | false => rfl
      | true => cases hcl rfl
    | over bytes hx =>
      cases hmi with
      | storeAfter a v post => exact .inl ⟨_, _, Step.store hc h0⟩
      | over => exact .inr ⟨by rw [hs]; simp, rfl⟩

/-- **C161 fails.** Whatever is assigned before Await, it may be what is written: there is an execution in which the file gets `data` as it
is after all these assignments. -/
theorem C161_changed_fails (f : Nat → V) (as : List Nat) (ok : V) (ws more : List (Nat × V)) :
    ∃ s, Run (program f as ok ws more) [as.map (assigned f ws)] s :=
  (C161_exact f as ok ws more _).2 (Sampled.all f ws as)

/-- **C161 fails.** What is written may be contents that `data` never had: with two elements changed one after the other, the file may get the
first as it was before and the second as it was after. -/
theorem C161_torn_fails (f : Nat → V) (a b : Nat) (x y : V) (ok : V) (more : List (Nat × V)) (hab : a ≠ b) (hx : x ≠ f a) (hy : y ≠ f b) :
    (∃ s, Run (program f [a, b] ok [(a, x), (b, y)] more) [[f a, y]] s) ∧
      ∀ n, [a, b].map (assigned f ([(a, x), (b, y)].take n)) ≠ [f a, y] := by
  refine ⟨(C161_exact ..).2 (.read _ _ a _ _ (.assign _ a x _ _ _ (.assign _ b y _ _ _ ?_))), fun n => ?_⟩
  · have h := Sampled.read (upd (upd f a x) b y) [] b [] [] (.stop _ _)
    rwa [show upd (upd f a x) b y b = y from if_pos rfl] at h
  · match n with
    | 0 => simp [assigned, Ne.symm hy]
    | 1 => simp [assigned, upd, hx]
    | n + 2 => simp [assigned, upd, hab, hx]

/-- Three elements, the second assigned after Await: kept; a change before Await shows. -/
example : ∀ tr s, Run (program (fun a => a * 10) [1, 2, 3] 0 [(7, 5)] [(2, 99)]) tr s → ∀ bytes ∈ tr, bytes = [10, 20, 30] :=
  fun tr s h => C161_kept_partial _ _ _ _ _ (by simp) tr s h
example : ∃ s, Run (program (fun a => a * 10) [1, 2, 3] 0 [(2, 99)] []) [[10, 99, 30]] s := C161_changed_fails ..
example : ∃ s, Run (program (fun a => a * 10) [1, 2] 0 [(1, 77), (2, 99)] []) [[10, 99]] s :=
  (C161_torn_fails (fun a => a * 10) 1 2 77 99 0 [] (by simp) (by simp) (by simp)).1
/-- With the assignments in the other order, the first new and the second old cannot be written. -/
example : ¬ ∃ s, Run (program (fun a => a * 10) [1, 2] 0 [(2, 99), (1, 77)] []) [[77, 20]] s := fun h => by
  generalize hf : (fun a => a * 10) = f at h
  have h := (C161_exact ..).1 h
  generalize hb : [77, 20] = bytes at h
  cases h with
  | read _ _ _ _ _ h => simp [← hf] at hb
  | assign _ _ _ _ _ _ h =>
    cases h with
    | read _ _ _ _ _ h => simp [upd, ← hf] at hb
    | assign _ _ _ _ _ _ h =>
      cases h with
      | read _ _ _ _ _ h =>
        cases h with
        | read _ _ _ _ _ h => simp [upd] at hb
end Gost
