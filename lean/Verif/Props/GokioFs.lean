import Verif.Model.GokioFs
import Verif.Props.Fs
import Verif.Props.Vec
/-
Property C126: the file functions of gokio, each awaited before the next call.
-/
namespace Gost
open Conc Os
namespace GokioFs

/-- A call of one of the nine functions, with the failures of its system calls. -/
inductive Call where
  | createDir (fault : Option Errno) (p : Path)
  | removeDir (fault : Option Errno) (p : Path)
  | write (createFault : Option Errno) (writeFault : Option (Nat × Errno)) (p : Path) (data : List UInt8)
  | removeFile (fault : Option Errno) (p : Path)
  | rename (fault : Option Errno) (a b : Path)
  | read (openFault readFault : Option Errno) (p : Path)
  | readDir (fault : Option Errno) (p : Path)
  | copy (fault : Option Errno) (a b : Path)
  | readToString (openFault readFault : Option Errno) (p : Path)

/-- Specification: the function of package gost of that name, called directly. -/
def Call.direct (g : Growth) (fs : FS) : Call → Go (Val × FS)
  | .createDir f p => .ok (.unit (Fs.createDir f fs p).1, (Fs.createDir f fs p).2)
  | .removeDir f p => .ok (.unit (Fs.removeDir f fs p).1, (Fs.removeDir f fs p).2)
  | .write cf wf p d => .ok (.unit (Fs.write cf wf fs p d).1, (Fs.write cf wf fs p d).2)
  | .removeFile f p => .ok (.unit (Fs.removeFile f fs p).1, (Fs.removeFile f fs p).2)
  | .rename f a b => .ok (.unit (Fs.rename f fs a b).1, (Fs.rename f fs a b).2)
  | .read f1 f2 p => .ok (.bytes (Fs.read f1 f2 fs p), fs)
  | .readDir f p => match Fs.readDir g f fs p with | .ok r => .ok (.entries r, fs) | .error e => .error e
  | .copy f a b => .ok (.unit (Fs.copy f fs a b).1, (Fs.copy f fs a b).2)
  | .readToString f1 f2 p => .ok (.str (Fs.readToString f1 f2 fs p), fs)

/-- The function of package gokio of that name. -/
def Call.spawned (g : Growth) (k : Gokio.Future → Proc Val Val) : Call → Proc Val Val
  | .createDir f p => GokioFs.createDir f p k
  | .removeDir f p => GokioFs.removeDir f p k
  | .write cf wf p d => GokioFs.write cf wf p d k
  | .removeFile f p => GokioFs.removeFile f p k
  | .rename f a b => GokioFs.rename f a b k
  | .read f1 f2 p => GokioFs.read f1 f2 p k
  | .readDir f p => GokioFs.readDir g f p k
  | .copy f a b => GokioFs.copy f a b k
  | .readToString f1 f2 p => GokioFs.readToString f1 f2 p k

/-- A program: it ends, or it makes a call and goes on according to the result. -/
inductive Prog where
  | ret
  | call (c : Call) (next : Val → Prog)

/-- Specification: the program with the functions of gost called one after another: the results, and the file
system at the end or the panic. -/
def Prog.direct (g : Growth) : Prog → FS → List Val × Go FS
  | .ret, fs => ([], .ok fs)
  | .call c next, fs =>
    match c.direct g fs with
    | .ok (r, fs) => (r :: ((next r).direct g fs).1, ((next r).direct g fs).2)
    | .error e => ([], .error e)

/-- The program with the functions of gokio, where every future is awaited before the program goes on; a result
that Await has returned is an event. -/
def Prog.awaited (g : Growth) : Prog → Proc Val Val
  | .ret => .done
  | .call c next => c.spawned g fun h => Gokio.await .zero h fun r => .emit r ((next r).awaited g)

/-- The program has just started. -/
def begin_ (g : Growth) (p : Prog) (fs : FS) : Config Val Val := start (fun _ => .fs fs) (p.awaited g)

variable {g : Growth}

/-- All nine functions spawn the function of gost. -/
theorem spawned_eq (c : Call) (k : Gokio.Future → Proc Val Val) :
    c.spawned g k = Gokio.spawn (call fun fs => c.direct g fs) k := by
  cases c with
  | readDir f p =>
    have : (fun fs => do let r ← Fs.readDir g f fs p; Except.ok (Val.entries r, fs)) =
        fun fs => Call.direct g fs (.readDir f p) := by
      funext fs
      simp only [Call.direct]
      cases Fs.readDir g f fs p <;> rfl
    show Gokio.spawn (call fun fs => do let r ← Fs.readDir g f fs p; Except.ok (Val.entries r, fs)) k = _
    rw [this]
  | _ => rfl

/-! ### Where the goroutines are -/

/-- Where main and the goroutine of the current call are. -/
inductive Ph where
  | idle (p : Prog)
  | made (c : Call) (next : Val → Prog)
  | locking (c : Call) (next : Val → Prog)
  | loading (c : Call) (next : Val → Prog)
  | dying (e : Panic) (next : Val → Prog)
  | storing (r : Val) (fs : FS) (next : Val → Prog)
  | unlocking (r : Val) (next : Val → Prog)
  | sending (r : Val) (next : Val → Prog)
  | waiting (r : Val) (next : Val → Prog)
  | back (r : Val) (next : Val → Prog)

/-- What the goroutine on channel `n` does with the result. -/
def deliver (n : Nat) (r : Val) : Proc Val Val := .send n r (.close n .done)
/-- The goroutine of a call once it has the lock. -/
def locked (g : Growth) (n : Nat) (c : Call) : Proc Val Val :=
  .load 0 fun v =>
    match v with
    | .fs fs =>
      match c.direct g fs with
      | .ok (r, fs) => .store 0 (.fs fs) (.unlock 0 (deliver n r))
      | .error _ => die
    | _ => .done
/-- main in Await. -/
def inAwait (g : Growth) (n : Nat) (next : Val → Prog) : Proc Val Val :=
  .recv n fun r => .emit (r.getD .zero) ((next (r.getD .zero)).awaited g)

/-- main, with `n` channels made before the current call -/
def Ph.main (g : Growth) (n : Nat) : Ph → Proc Val Val
  | .idle p => p.awaited g
  | .made c next => .go (.lock 0 (locked g n c)) (inAwait g n next)
  | .locking _ next | .loading _ next | .dying _ next | .storing _ _ next | .unlocking _ next | .sending _ next
  | .waiting _ next => inAwait g n next
  | .back r next => .emit r ((next r).awaited g)
/-- the goroutine of the current call -/
def Ph.worker (g : Growth) (n : Nat) : Ph → List (Proc Val Val)
  | .idle _ | .made _ _ | .back _ _ => []
  | .locking c _ => [.lock 0 (locked g n c)]
  | .loading c _ => [locked g n c]
  | .dying _ _ => [die]
  | .storing r fs _ => [.store 0 (.fs fs) (.unlock 0 (deliver n r))]
  | .unlocking r _ => [.unlock 0 (deliver n r)]
  | .sending r _ => [deliver n r]
  | .waiting r _ => [.parked n r (.close n .done)]
/-- the channel of the current call -/
def Ph.chan : Ph → List (Chan Val)
  | .idle _ | .back _ _ => []
  | _ => [⟨0, [], false⟩]
/-- whether the file system is locked -/
def Ph.lock : Ph → Bool
  | .loading _ _ | .dying _ _ | .storing _ _ _ | .unlocking _ _ => true
  | _ => false

/-- The goroutines of the calls made before, from number `n` on: about to close their channel, or over. -/
def olds : Nat → List Bool → List (Proc Val Val)
  | _, [] => []
  | n, b :: bs => (if b then .done else .close n .done) :: olds (n + 1) bs

/-- The configuration is at this place; `bs` says which of the earlier calls have closed their channel. -/
structure At (g : Growth) (s : Config Val Val) (bs : List Bool) (ph : Ph) (fs : FS) : Prop where
  procs : s.procs = ph.main g bs.length :: (olds 0 bs ++ ph.worker g bs.length)
  chans : s.chans = bs.map (fun b => ⟨0, [], b⟩) ++ ph.chan
  lock0 : s.locks 0 = ph.lock
  lock1 : s.locks 1 = false
  var : s.vars 0 = .fs fs
  live : s.crashed = false

theorem olds_length (n : Nat) (bs : List Bool) : (olds n bs).length = bs.length := by
  induction bs generalizing n with
  | nil => rfl
  | cons b bs ih => simp [olds, ih]
theorem olds_get (n : Nat) (bs : List Bool) (j : Nat) :
    (olds n bs)[j]? = bs[j]?.map fun b => if b then .done else .close (n + j) .done := by
  induction bs generalizing n j with
  | nil => rfl
  | cons b bs ih =>
    cases j with
    | zero => rfl
    | succ j =>
      simp only [olds, List.getElem?_cons_succ, ih]
      rw [show n + 1 + j = n + (j + 1) by omega]
theorem olds_snoc (n : Nat) (bs : List Bool) : olds n (bs ++ [false]) = olds n bs ++ [.close (n + bs.length) .done] := by
  induction bs generalizing n with
  | nil => rfl
  | cons b bs ih =>
    simp only [List.cons_append, olds, ih, List.length_cons]
    rw [show n + 1 + bs.length = n + (bs.length + 1) by omega]
theorem olds_set (n : Nat) (bs : List Bool) (j : Nat) : olds n (bs.set j true) = (olds n bs).set j .done := by
  induction bs generalizing n j with
  | nil => rfl
  | cons b bs ih =>
    cases j with
    | zero => simp [olds]
    | succ j => simp [olds, ih]

/-- The moves of the program. -/
inductive Move (g : Growth) : List Bool → Ph → FS → Option Val → List Bool → Ph → FS → Prop
  | close {bs ph fs} {j : Nat} (h : bs[j]? = some false) : Move g bs ph fs none (bs.set j true) ph fs
  | make {bs c next fs} : Move g bs (.idle (.call c next)) fs none bs (.made c next) fs
  | go {bs c next fs} : Move g bs (.made c next) fs none bs (.locking c next) fs
  | lock {bs c next fs} : Move g bs (.locking c next) fs none bs (.loading c next) fs
  | load {bs c next fs r fs'} (h : c.direct g fs = .ok (r, fs')) :
      Move g bs (.loading c next) fs none bs (.storing r fs' next) fs
  | die {bs c next fs e} (h : c.direct g fs = .error e) :
      Move g bs (.loading c next) fs none bs (.dying e next) fs
  | store {bs r fs' next fs} : Move g bs (.storing r fs' next) fs none bs (.unlocking r next) fs'
  | unlock {bs r next fs} : Move g bs (.unlocking r next) fs none bs (.sending r next) fs
  | park {bs r next fs} : Move g bs (.sending r next) fs none bs (.waiting r next) fs
  | meet {bs ph r next fs} (h : ph = .sending r next ∨ ph = .waiting r next) :
      Move g bs ph fs none (bs ++ [false]) (.back r next) fs
  | emit {bs r next fs} : Move g bs (.back r next) fs (some r) bs (.idle (next r)) fs

theorem procs_cases {s : Config Val Val} {bs : List Bool} {ph : Ph} {fs : FS} (h : At g s bs ph fs) {i : Nat}
    {p : Proc Val Val} (hp : s.procs[i]? = some p) :
    (i = 0 ∧ p = ph.main g bs.length) ∨
    (∃ j b, i = j + 1 ∧ bs[j]? = some b ∧ p = if b then .done else .close j .done) ∨
    (i = bs.length + 1 ∧ ph.worker g bs.length = [p]) := by
  rw [h.procs] at hp
  match i with
  | 0 => exact .inl ⟨rfl, by simpa using hp.symm⟩
  | j + 1 =>
    rw [List.getElem?_cons_succ, List.getElem?_append] at hp
    by_cases hj : j < (olds 0 bs).length
    · rw [if_pos hj, olds_get] at hp
      obtain ⟨b, hb, e⟩ := Option.map_eq_some_iff.1 hp
      rw [Nat.zero_add] at e
      exact .inr (.inl ⟨j, b, rfl, hb, e.symm⟩)
    · rw [if_neg hj] at hp
      rw [olds_length] at hp hj
      have hl := (List.getElem?_eq_some_iff.1 hp).1
      have h1 : (ph.worker g bs.length).length ≤ 1 := by cases ph <;> simp [Ph.worker]
      have h0 : j = bs.length := by omega
      subst h0
      rw [Nat.sub_self] at hp
      refine .inr (.inr ⟨rfl, ?_⟩)
      match hw : ph.worker g bs.length, hp, h1 with
      | [q], hp, _ => simpa using hp
      | q :: r :: t, _, h1 => simp at h1

/-- Who executes an instruction. -/
theorem who {s : Config Val Val} {bs : List Bool} {ph : Ph} {fs : FS} (h : At g s bs ph fs) {i : Nat}
    {p : Proc Val Val} (hp : s.procs[i]? = some p) :
    p = .done ∨
    (∃ j, i = j + 1 ∧ bs[j]? = some false ∧ p = .close j .done) ∨
    (i = 0 ∧ ∃ c next, ph = .idle (.call c next) ∧
      p = .make 0 fun n => .go (.lock 0 (locked g n c)) (inAwait g n next)) ∨
    (i = 0 ∧ ∃ c next, ph = .made c next ∧ p = .go (.lock 0 (locked g bs.length c)) (inAwait g bs.length next)) ∨
    (i = 0 ∧ ∃ next, ph.main g bs.length = inAwait g bs.length next ∧ p = inAwait g bs.length next) ∨
    (i = 0 ∧ ∃ r next, ph = .back r next ∧ p = .emit r ((next r).awaited g)) ∨
    (i = bs.length + 1 ∧ ∃ c next, ph = .locking c next ∧ p = .lock 0 (locked g bs.length c)) ∨
    (i = bs.length + 1 ∧ ∃ c next, ph = .loading c next ∧ p = locked g bs.length c) ∨
    (i = bs.length + 1 ∧ ∃ e next, ph = .dying e next ∧ p = die) ∨
    (i = bs.length + 1 ∧ ∃ r fs' next, ph = .storing r fs' next ∧
      p = .store 0 (.fs fs') (.unlock 0 (deliver bs.length r))) ∨
    (i = bs.length + 1 ∧ ∃ r next, ph = .unlocking r next ∧ p = .unlock 0 (deliver bs.length r)) ∨
    (i = bs.length + 1 ∧ ∃ r next, ph = .sending r next ∧ p = .send bs.length r (.close bs.length .done)) ∨
    (i = bs.length + 1 ∧ ∃ r next, ph = .waiting r next ∧ p = .parked bs.length r (.close bs.length .done)) := by
  rcases procs_cases h hp with ⟨rfl, rfl⟩ | ⟨j, b, rfl, hb, rfl⟩ | ⟨rfl, hw⟩
  · cases ph with
    | idle q =>
      cases q with
      | ret => exact .inl rfl
      | call c next =>
        refine .inr (.inr (.inl ⟨rfl, c, next, rfl, ?_⟩))
        show Call.spawned g _ c = _
        rw [spawned_eq]
        rfl
    | made c next => exact .inr (.inr (.inr (.inl ⟨rfl, c, next, rfl, rfl⟩)))
    | back r next => exact .inr (.inr (.inr (.inr (.inr (.inl ⟨rfl, r, next, rfl, rfl⟩)))))
    | locking _ next | loading _ next | dying _ next | storing _ _ next | unlocking _ next | sending _ next
    | waiting _ next => exact .inr (.inr (.inr (.inr (.inl ⟨rfl, next, rfl, rfl⟩))))
  · cases b with
    | true => exact .inl rfl
    | false => exact .inr (.inl ⟨j, rfl, hb, rfl⟩)
  · refine .inr (.inr (.inr (.inr (.inr (.inr ?_)))))
    cases ph with
    | idle _ | made _ _ | back _ _ => simp [Ph.worker] at hw
    | locking c next => cases hw; exact .inl ⟨rfl, c, next, rfl, rfl⟩
    | loading c next => cases hw; exact .inr (.inl ⟨rfl, c, next, rfl, rfl⟩)
    | dying e next => cases hw; exact .inr (.inr (.inl ⟨rfl, e, next, rfl, rfl⟩))
    | storing r f next => cases hw; exact .inr (.inr (.inr (.inl ⟨rfl, r, f, next, rfl, rfl⟩)))
    | unlocking r next => cases hw; exact .inr (.inr (.inr (.inr (.inl ⟨rfl, r, next, rfl, rfl⟩))))
    | sending r next => cases hw; exact .inr (.inr (.inr (.inr (.inr (.inl ⟨rfl, r, next, rfl, rfl⟩)))))
    | waiting r next => cases hw; exact .inr (.inr (.inr (.inr (.inr (.inr ⟨rfl, r, next, rfl, rfl⟩)))))

/-- Nobody executes an instruction of another kind. -/
macro "nobody" h:term : tactic => `(tactic|
  (have w := $h
   rcases w with e | ⟨_, _, _, e⟩ | ⟨_, _, _, _, e⟩ | ⟨_, _, _, _, e⟩ | ⟨_, _, _, e⟩ | ⟨_, _, _, _, e⟩ |
    ⟨_, _, _, _, e⟩ | ⟨_, _, _, _, e⟩ | ⟨_, _, _, _, e⟩ | ⟨_, _, _, _, _, e⟩ | ⟨_, _, _, _, e⟩ | ⟨_, _, _, _, e⟩ |
    ⟨_, _, _, _, e⟩ <;> cases e))

theorem sends {s : Config Val Val} {bs : List Bool} {ph : Ph} {fs : FS} (h : At g s bs ph fs) {i c : Nat} {w : Val}
    {k : Proc Val Val} (hs : SendsAt s i c w k) :
    i = bs.length + 1 ∧ c = bs.length ∧ k = .close bs.length .done ∧
      ∃ next, ph = .sending w next ∨ ph = .waiting w next := by
  rcases hs with hp | hp
  · rcases who h hp with e | ⟨_, _, _, e⟩ | ⟨_, _, _, _, e⟩ | ⟨_, _, _, _, e⟩ | ⟨_, _, _, e⟩ | ⟨_, _, _, _, e⟩ |
      ⟨_, _, _, _, e⟩ | ⟨_, _, _, _, e⟩ | ⟨_, _, _, _, e⟩ | ⟨_, _, _, _, _, e⟩ | ⟨_, _, _, _, e⟩ |
      ⟨rfl, r, next, hph, e⟩ | ⟨_, _, _, _, e⟩ <;> cases e
    exact ⟨rfl, rfl, rfl, next, .inl hph⟩
  · rcases who h hp with e | ⟨_, _, _, e⟩ | ⟨_, _, _, _, e⟩ | ⟨_, _, _, _, e⟩ | ⟨_, _, _, e⟩ | ⟨_, _, _, _, e⟩ |
      ⟨_, _, _, _, e⟩ | ⟨_, _, _, _, e⟩ | ⟨_, _, _, _, e⟩ | ⟨_, _, _, _, _, e⟩ | ⟨_, _, _, _, e⟩ |
      ⟨_, _, _, _, e⟩ | ⟨rfl, r, next, hph, e⟩ <;> cases e
    exact ⟨rfl, rfl, rfl, next, .inr hph⟩

theorem set_worker {bs : List Bool} (m q q' : Proc Val Val) :
    (m :: (olds 0 bs ++ [q])).set (bs.length + 1) q' = m :: (olds 0 bs ++ [q']) := by
  rw [List.set_cons_succ, List.set_append_right _ _ (by rw [olds_length]; exact Nat.le_refl _), olds_length,
    Nat.sub_self]
  rfl

theorem chan_cases {s : Config Val Val} {bs : List Bool} {ph : Ph} {fs : FS} (h : At g s bs ph fs) {c : Nat}
    {ch : Chan Val} (hc : s.chans[c]? = some ch) :
    (∃ b, bs[c]? = some b ∧ ch = ⟨0, [], b⟩) ∨ (c = bs.length ∧ ch = ⟨0, [], false⟩) := by
  rw [h.chans, List.getElem?_append] at hc
  by_cases hj : c < bs.length
  · rw [if_pos (by simpa using hj), List.getElem?_map] at hc
    obtain ⟨b, hb, e⟩ := Option.map_eq_some_iff.1 hc
    exact .inl ⟨b, hb, e.symm⟩
  · rw [if_neg (by simpa using hj), List.length_map] at hc
    have hl := (List.getElem?_eq_some_iff.1 hc).1
    have hcs : ph.chan = [] ∨ ph.chan = [⟨0, [], false⟩] := by cases ph <;> simp [Ph.chan]
    rcases hcs with e | e
    · rw [e] at hl
      simp at hl
    · rw [e] at hl hc
      have h0 : c - bs.length = 0 := by simpa using hl
      rw [h0] at hc
      exact .inr ⟨by omega, by simpa using hc.symm⟩

/-- Every step of the program is one of the moves, or its death. -/
theorem step_move {s s' : Config Val Val} {bs : List Bool} {ph : Ph} {fs : FS} {e : Option Val} (h : At g s bs ph fs)
    (st : Step s e s') :
    (∃ bs' ph' fs', Move g bs ph fs e bs' ph' fs' ∧ At g s' bs' ph' fs') ∨
      (s'.crashed = true ∧ e = none ∧ ∃ x next, ph = .dying x next) := by
  cases st with
  | emit hc hp =>
    rcases who h hp with e | ⟨_, _, _, e⟩ | ⟨_, _, _, _, e⟩ | ⟨_, _, _, _, e⟩ | ⟨_, _, _, e⟩ | ⟨rfl, r, next, rfl, e⟩ |
      ⟨_, _, _, _, e⟩ | ⟨_, _, _, _, e⟩ | ⟨_, _, _, _, e⟩ | ⟨_, _, _, _, _, e⟩ | ⟨_, _, _, _, e⟩ |
      ⟨_, _, _, _, e⟩ | ⟨_, _, _, _, e⟩ <;> cases e
    refine .inl ⟨_, _, _, .emit, ⟨?_, h.chans, h.lock0, h.lock1, h.var, h.live⟩⟩
    simp only [Config.to]
    rw [h.procs]
    rfl
  | tau hc hp => nobody who h hp
  | go hc hp =>
    rcases who h hp with e | ⟨_, _, _, e⟩ | ⟨_, _, _, _, e⟩ | ⟨rfl, c, next, rfl, e⟩ | ⟨_, _, _, e⟩ | ⟨_, _, _, _, e⟩ |
      ⟨_, _, _, _, e⟩ | ⟨_, _, _, _, e⟩ | ⟨_, _, _, _, e⟩ | ⟨_, _, _, _, _, e⟩ | ⟨_, _, _, _, e⟩ |
      ⟨_, _, _, _, e⟩ | ⟨_, _, _, _, e⟩ <;> cases e
    refine .inl ⟨_, _, _, .go, ⟨?_, h.chans, h.lock0, h.lock1, h.var, h.live⟩⟩
    simp only
    rw [h.procs]
    simp [Ph.worker, Ph.main]
  | make hc hp =>
    rcases who h hp with e | ⟨_, _, _, e⟩ | ⟨rfl, c, next, rfl, e⟩ | ⟨_, _, _, _, e⟩ | ⟨_, _, _, e⟩ | ⟨_, _, _, _, e⟩ |
      ⟨_, _, _, _, e⟩ | ⟨_, _, _, _, e⟩ | ⟨_, _, _, _, e⟩ | ⟨_, _, _, _, _, e⟩ | ⟨_, _, _, _, e⟩ |
      ⟨_, _, _, _, e⟩ | ⟨_, _, _, _, e⟩ <;> cases e
    have hl : s.chans.length = bs.length := by rw [h.chans]; simp [Ph.chan]
    refine .inl ⟨_, _, _, .make, ⟨?_, ?_, h.lock0, h.lock1, h.var, h.live⟩⟩
    · simp only [Config.to]
      rw [h.procs, hl]
      rfl
    · simp only
      rw [h.chans]
      simp [Ph.chan]
  | park hc hp hch hcl =>
    obtain ⟨rfl, rfl, rfl, next, hph⟩ := sends h (.fresh hp)
    rcases hph with rfl | rfl
    · refine .inl ⟨_, _, _, .park, ⟨?_, h.chans, h.lock0, h.lock1, h.var, h.live⟩⟩
      simp only [Config.to]
      rw [h.procs]
      exact set_worker ..
    · rcases procs_cases h hp with ⟨e, _⟩ | ⟨j, b, _, _, e⟩ | ⟨_, e⟩
      · omega
      · cases b <;> cases e
      · cases e
  | sendBuf hc hp hch hcl hb =>
    rcases chan_cases h hch with ⟨b, _, rfl⟩ | ⟨_, rfl⟩ <;> simp at hb
  | sendClosed hc hp hch hcl =>
    obtain ⟨rfl, rfl, rfl, next, hph⟩ := sends h hp
    rcases chan_cases h hch with ⟨b, hb, rfl⟩ | ⟨_, rfl⟩
    · have := (List.getElem?_eq_some_iff.1 hb).1
      omega
    · cases hcl
  | @meet _ _ _ v _ _ _ hc hp hj hch hcl hb =>
    obtain ⟨rfl, rfl, rfl, next, hph⟩ := sends h hp
    rcases who h hj with e | ⟨_, _, _, e⟩ | ⟨_, _, _, _, e⟩ | ⟨_, _, _, _, e⟩ | ⟨rfl, next', hm, e⟩ | ⟨_, _, _, _, e⟩ |
      ⟨_, _, _, _, e⟩ | ⟨_, _, _, _, e⟩ | ⟨_, _, _, _, e⟩ | ⟨_, _, _, _, _, e⟩ | ⟨_, _, _, _, e⟩ |
      ⟨_, _, _, _, e⟩ | ⟨_, _, _, _, e⟩ <;> cases e
    refine .inl ⟨_, _, _, .meet hph, ⟨?_, ?_, ?_, h.lock1, h.var, h.live⟩⟩
    · simp only [Config.to]
      rw [h.procs, olds_snoc]
      have e : inAwait g bs.length next = inAwait g bs.length next' := by
        rcases hph with rfl | rfl <;> exact hm
      have e := congrFun (Proc.recv.inj e).2 (some v)
      rcases hph with rfl | rfl <;>
        simp only [Ph.worker, set_worker, Ph.main, List.set_cons_zero, List.append_nil, Nat.zero_add] <;>
        exact congrArg (· :: _) e.symm
    · simp only [Config.to]
      rw [h.chans]
      rcases hph with rfl | rfl <;> simp [Ph.chan]
    · show s.locks 0 = _
      rw [h.lock0]
      rcases hph with rfl | rfl <;> rfl
  | meetPoll hc _ hp => nobody who h hp
  | recvBuf hc hj hch hb =>
    rcases chan_cases h hch with ⟨b, _, rfl⟩ | ⟨_, rfl⟩ <;> cases hb
  | pollBuf hc hp => nobody who h hp
  | recvClosed hc hj hch hcl hb =>
    rcases who h hj with e | ⟨_, _, _, e⟩ | ⟨_, _, _, _, e⟩ | ⟨_, _, _, _, e⟩ | ⟨rfl, next', hm, e⟩ | ⟨_, _, _, _, e⟩ |
      ⟨_, _, _, _, e⟩ | ⟨_, _, _, _, e⟩ | ⟨_, _, _, _, e⟩ | ⟨_, _, _, _, _, e⟩ | ⟨_, _, _, _, e⟩ |
      ⟨_, _, _, _, e⟩ | ⟨_, _, _, _, e⟩ <;> cases e
    rcases chan_cases h hch with ⟨b, hb', rfl⟩ | ⟨_, rfl⟩
    · have := (List.getElem?_eq_some_iff.1 hb').1
      omega
    · cases hcl
  | pollClosed hc hp => nobody who h hp
  | pollDefault hc hp => nobody who h hp
  | close hc hp hch hcl =>
    rcases who h hp with e | ⟨j, rfl, hj, e⟩ | ⟨_, _, _, _, e⟩ | ⟨_, _, _, _, e⟩ | ⟨_, _, _, e⟩ | ⟨_, _, _, _, e⟩ |
      ⟨_, _, _, _, e⟩ | ⟨_, _, _, _, e⟩ | ⟨_, _, _, _, e⟩ | ⟨_, _, _, _, _, e⟩ | ⟨_, _, _, _, e⟩ |
      ⟨_, _, _, _, e⟩ | ⟨_, _, _, _, e⟩ <;> cases e
    have hlt := (List.getElem?_eq_some_iff.1 hj).1
    refine .inl ⟨_, _, _, .close hj, ⟨?_, ?_, h.lock0, h.lock1, h.var, h.live⟩⟩
    · simp only [Config.to]
      rw [h.procs, List.set_cons_succ, List.set_append_left _ _ (by rw [olds_length]; exact hlt), olds_set,
        List.length_set]
    · simp only
      rcases chan_cases h hch with ⟨b, hb, rfl⟩ | ⟨e, _⟩
      · rw [h.chans, List.set_append_left _ _ (by simpa using hlt), List.map_set]
      · omega
  | closeClosed hc hp hch hcl =>
    rcases who h hp with e | ⟨j, rfl, hj, e⟩ | ⟨_, _, _, _, e⟩ | ⟨_, _, _, _, e⟩ | ⟨_, _, _, e⟩ | ⟨_, _, _, _, e⟩ |
      ⟨_, _, _, _, e⟩ | ⟨_, _, _, _, e⟩ | ⟨_, _, _, _, e⟩ | ⟨_, _, _, _, _, e⟩ | ⟨_, _, _, _, e⟩ |
      ⟨_, _, _, _, e⟩ | ⟨_, _, _, _, e⟩ <;> cases e
    rcases chan_cases h hch with ⟨b, hb, rfl⟩ | ⟨_, rfl⟩
    · rw [hj] at hb
      cases hb
      cases hcl
    · cases hcl
  | lock hc hp hl =>
    rcases who h hp with e | ⟨_, _, _, e⟩ | ⟨_, _, _, _, e⟩ | ⟨_, _, _, _, e⟩ | ⟨_, _, _, e⟩ | ⟨_, _, _, _, e⟩ |
      ⟨rfl, c, next, rfl, e⟩ | ⟨_, _, _, _, e⟩ | ⟨_, _, _, _, e⟩ | ⟨_, _, _, _, _, e⟩ | ⟨_, _, _, _, e⟩ |
      ⟨_, _, _, _, e⟩ | ⟨_, _, _, _, e⟩ <;> cases e
    refine .inl ⟨_, _, _, .lock, ⟨?_, h.chans, rfl, h.lock1, h.var, h.live⟩⟩
    simp only [Config.to]
    rw [h.procs]
    exact set_worker ..
  | tryLock hc hp => nobody who h hp
  | tryLockFails hc hp => nobody who h hp
  | unlock hc hp hl =>
    rcases who h hp with e | ⟨_, _, _, e⟩ | ⟨_, _, _, _, e⟩ | ⟨_, _, _, _, e⟩ | ⟨_, _, _, e⟩ | ⟨_, _, _, _, e⟩ |
      ⟨_, _, _, _, e⟩ | ⟨_, _, _, _, e⟩ | ⟨_, _, _, _, e⟩ | ⟨_, _, _, _, _, e⟩ | ⟨rfl, r, next, rfl, e⟩ |
      ⟨_, _, _, _, e⟩ | ⟨_, _, _, _, e⟩ <;> cases e
    · rw [h.lock1] at hl
      cases hl
    · refine .inl ⟨_, _, _, .unlock, ⟨?_, h.chans, rfl, h.lock1, h.var, h.live⟩⟩
      simp only [Config.to]
      rw [h.procs]
      exact set_worker ..
  | unlockFree hc hp hl =>
    rcases who h hp with e | ⟨_, _, _, e⟩ | ⟨_, _, _, _, e⟩ | ⟨_, _, _, _, e⟩ | ⟨_, _, _, e⟩ | ⟨_, _, _, _, e⟩ |
      ⟨_, _, _, _, e⟩ | ⟨_, _, _, _, e⟩ | ⟨_, x, next, rfl, e⟩ | ⟨_, _, _, _, _, e⟩ | ⟨rfl, r, next, rfl, e⟩ |
      ⟨_, _, _, _, e⟩ | ⟨_, _, _, _, e⟩ <;> cases e
    · exact .inr ⟨rfl, rfl, x, next, rfl⟩
    · rw [h.lock0] at hl
      cases hl
  | load hc hp =>
    rcases who h hp with e | ⟨_, _, _, e⟩ | ⟨_, _, _, _, e⟩ | ⟨_, _, _, _, e⟩ | ⟨_, _, _, e⟩ | ⟨_, _, _, _, e⟩ |
      ⟨_, _, _, _, e⟩ | ⟨rfl, c, next, rfl, e⟩ | ⟨_, _, _, _, e⟩ | ⟨_, _, _, _, _, e⟩ | ⟨_, _, _, _, e⟩ |
      ⟨_, _, _, _, e⟩ | ⟨_, _, _, _, e⟩ <;> cases e
    rw [h.var]
    cases hd : c.direct g fs with
    | ok x =>
      obtain ⟨r, fs'⟩ := x
      refine .inl ⟨_, _, _, .load hd, ⟨?_, h.chans, h.lock0, h.lock1, h.var, h.live⟩⟩
      simp only [Config.to, hd]
      rw [h.procs]
      exact set_worker ..
    | error x =>
      refine .inl ⟨_, _, _, .die hd, ⟨?_, h.chans, h.lock0, h.lock1, h.var, h.live⟩⟩
      simp only [Config.to, hd]
      rw [h.procs]
      exact set_worker ..
  | store hc hp =>
    rcases who h hp with e | ⟨_, _, _, e⟩ | ⟨_, _, _, _, e⟩ | ⟨_, _, _, _, e⟩ | ⟨_, _, _, e⟩ | ⟨_, _, _, _, e⟩ |
      ⟨_, _, _, _, e⟩ | ⟨_, _, _, _, e⟩ | ⟨_, _, _, _, e⟩ | ⟨rfl, r, fs', next, rfl, e⟩ | ⟨_, _, _, _, e⟩ |
      ⟨_, _, _, _, e⟩ | ⟨_, _, _, _, e⟩ <;> cases e
    refine .inl ⟨_, _, _, .store, ⟨?_, h.chans, h.lock0, h.lock1, rfl, h.live⟩⟩
    simp only [Config.to]
    rw [h.procs]
    exact set_worker ..

theorem get_worker {s : Config Val Val} {bs : List Bool} {ph : Ph} {fs : FS} (h : At g s bs ph fs) {q : Proc Val Val}
    (hw : ph.worker g bs.length = [q]) : s.procs[bs.length + 1]? = some q := by
  rw [h.procs, hw, List.getElem?_cons_succ, List.getElem?_append_right (by rw [olds_length]; exact Nat.le_refl _),
    olds_length, Nat.sub_self]
  rfl
theorem get_main {s : Config Val Val} {bs : List Bool} {ph : Ph} {fs : FS} (h : At g s bs ph fs) :
    s.procs[0]? = some (ph.main g bs.length) := by
  rw [h.procs]
  rfl
theorem get_chan {s : Config Val Val} {bs : List Bool} {ph : Ph} {fs : FS} (h : At g s bs ph fs)
    (hw : ph.chan = [⟨0, [], false⟩]) : s.chans[bs.length]? = some ⟨0, [], false⟩ := by
  rw [h.chans, hw, List.getElem?_append_right (by simp)]
  simp

/-- As long as a call is under way or a channel is still to be closed, something can happen. -/
theorem progress {s : Config Val Val} {bs : List Bool} {ph : Ph} {fs : FS} (h : At g s bs ph fs)
    (hn : ∀ e s', ¬ Step s e s') : ph = .idle .ret ∧ ∀ b ∈ bs, b = true := by
  have hph : ph = .idle .ret := by
    cases ph with
    | idle p =>
      cases p with
      | ret => rfl
      | call c next =>
        have hm := get_main h
        simp only [Ph.main, Prog.awaited, spawned_eq] at hm
        exact absurd (Step.make h.live hm) (hn _ _)
    | made c next => exact absurd (Step.go h.live (get_main h)) (hn _ _)
    | locking c next => exact absurd (Step.lock h.live (get_worker h rfl) h.lock0) (hn _ _)
    | loading c next => exact absurd (Step.load h.live (get_worker h rfl)) (hn _ _)
    | dying e next => exact absurd (Step.unlockFree h.live (get_worker h rfl) h.lock1) (hn _ _)
    | storing r fs next => exact absurd (Step.store h.live (get_worker h rfl)) (hn _ _)
    | unlocking r next => exact absurd (Step.unlock h.live (get_worker h rfl) h.lock0) (hn _ _)
    | sending r next => exact absurd (Step.park h.live (get_worker h rfl) (get_chan h rfl) rfl) (hn _ _)
    | waiting r next =>
      exact absurd (Step.meet h.live (.waiting (get_worker h rfl)) (get_main h) (get_chan h rfl) rfl rfl) (hn _ _)
    | back r next => exact absurd (Step.emit h.live (get_main h)) (hn _ _)
  refine ⟨hph, ?_⟩
  intro b hb
  cases b with
  | true => rfl
  | false =>
    obtain ⟨j, hj, e⟩ := List.mem_iff_getElem.1 hb
    have hj' : bs[j]? = some false := by rw [List.getElem?_eq_getElem hj, e]
    have hp : s.procs[j + 1]? = some (.close j .done) := by
      rw [h.procs, List.getElem?_cons_succ, List.getElem?_append_left (by rw [olds_length]; exact hj), olds_get, hj',
        Nat.zero_add]
      rfl
    have hc : s.chans[j]? = some ⟨0, [], false⟩ := by
      rw [h.chans, List.getElem?_append_left (by simpa using hj), List.getElem?_map, hj']
      rfl
    exact absurd (Step.close h.live hp hc rfl) (hn _ _)

/-- What the program will still show, and its end, from this place on. -/
def Ph.rest (g : Growth) (fs : FS) : Ph → List Val × Go FS
  | .idle p => p.direct g fs
  | .made c next | .locking c next | .loading c next => (Prog.call c next).direct g fs
  | .dying e _ => ([], .error e)
  | .storing r fs' next => (r :: ((next r).direct g fs').1, ((next r).direct g fs').2)
  | .unlocking r next | .sending r next | .waiting r next | .back r next =>
    (r :: ((next r).direct g fs).1, ((next r).direct g fs).2)

theorem move_rest {bs bs' : List Bool} {ph ph' : Ph} {fs fs' : FS} {e : Option Val}
    (m : Move g bs ph fs e bs' ph' fs') :
    (ph.rest g fs).1 = e.toList ++ (ph'.rest g fs').1 ∧ (ph.rest g fs).2 = (ph'.rest g fs').2 := by
  cases m with
  | load h | die h => simp [Ph.rest, Prog.direct, h]
  | meet h => rcases h with rfl | rfl <;> exact ⟨rfl, rfl⟩
  | _ => exact ⟨rfl, rfl⟩

/-- The steps still to come. -/
def Prog.cost (g : Growth) : Prog → FS → Nat
  | .ret, _ => 0
  | .call c next, fs =>
    match c.direct g fs with
    | .ok (r, fs) => 12 + (next r).cost g fs
    | .error _ => 12
def Ph.cost (g : Growth) (fs : FS) : Ph → Nat
  | .idle p => p.cost g fs
  | .made c next => (Prog.call c next).cost g fs - 1
  | .locking c next => (Prog.call c next).cost g fs - 2
  | .loading c next => (Prog.call c next).cost g fs - 3
  | .dying _ _ => 1
  | .storing r fs' next => 8 + (next r).cost g fs'
  | .unlocking r next => 7 + (next r).cost g fs
  | .sending r next => 6 + (next r).cost g fs
  | .waiting r next => 5 + (next r).cost g fs
  | .back r next => 3 + (next r).cost g fs

theorem cost_call (c : Call) (next : Val → Prog) (fs : FS) : 12 ≤ (Prog.call c next).cost g fs := by
  unfold Prog.cost
  split <;> omega

theorem count_close {bs : List Bool} {j : Nat} (h : bs[j]? = some false) :
    (bs.set j true).count false + 1 = bs.count false := by
  induction bs generalizing j with
  | nil => simp at h
  | cons b bs ih =>
    cases j with
    | zero =>
      cases h
      simp
    | succ j =>
      have := ih h
      simp only [List.set_cons_succ, List.count_cons]
      omega

theorem move_cost {bs bs' : List Bool} {ph ph' : Ph} {fs fs' : FS} {e : Option Val}
    (m : Move g bs ph fs e bs' ph' fs') :
    ph'.cost g fs' + bs'.count false < ph.cost g fs + bs.count false := by
  cases m with
  | close h =>
    have := count_close h
    omega
  | @make c next _ | @go c next _ | @lock c next _ =>
    have := cost_call (g := g) c next fs
    simp only [Ph.cost]
    omega
  | load h | die h =>
    simp only [Ph.cost, Prog.cost, h]
    omega
  | meet h =>
    rcases h with rfl | rfl <;>
      simp only [Ph.cost, List.count_append, List.count_singleton_self] <;> omega
  | _ =>
    simp only [Ph.cost]
    omega

theorem at_begin (p : Prog) (fs : FS) : At g (begin_ g p fs) [] (.idle p) fs := by
  exact ⟨rfl, rfl, rfl, rfl, rfl, rfl⟩

theorem dead {s s' : Config Val Val} {e : Option Val} (h : s.crashed = true) : ¬ Step s e s' := by
  intro st
  cases st with
  | _ hc => rw [h] at hc; cases hc

/-- An execution is somewhere, or has died where the direct program panics. -/
theorem run_at {p : Prog} {fs : FS} {tr : List Val} {s : Config Val Val} (h : Run (begin_ g p fs) tr s) :
    (∃ bs ph fs', At g s bs ph fs' ∧ (p.direct g fs).1 = tr ++ (ph.rest g fs').1 ∧
      (p.direct g fs).2 = (ph.rest g fs').2) ∨
    (s.crashed = true ∧ (p.direct g fs).1 = tr ∧ ∃ e, (p.direct g fs).2 = .error e) := by
  induction h with
  | nil => exact .inl ⟨[], _, fs, at_begin p fs, rfl, rfl⟩
  | @step t u tr e r h ih =>
    rcases ih with ⟨bs, ph, fs', ha, h1, h2⟩ | ⟨hc, _⟩
    · rcases step_move ha h with ⟨bs', ph', fs'', m, ha'⟩ | ⟨hc, rfl, x, next, rfl⟩
      · obtain ⟨m1, m2⟩ := move_rest m
        exact .inl ⟨bs', ph', fs'', ha', by rw [h1, m1, List.append_assoc], by rw [h2, m2]⟩
      · refine .inr ⟨hc, ?_, x, h2⟩
        rw [h1]
        simp [Ph.rest]
    · exact absurd h (dead hc)

end GokioFs

/-- C126: whatever the schedule, what the awaited calls have returned is what the functions of gost return when
they are called one after another. -/
theorem C126_results (g : Growth) (p : GokioFs.Prog) (fs : FS) {tr : List GokioFs.Val}
    {s : Config GokioFs.Val GokioFs.Val} (h : Run (GokioFs.begin_ g p fs) tr s) : tr <+: (p.direct g fs).1 := by
  rcases GokioFs.run_at h with ⟨_, _, _, _, h1, _⟩ | ⟨_, h1, _⟩
  · exact ⟨_, h1.symm⟩
  · exact h1 ▸ List.prefix_refl _

/-- C126: an execution that cannot go on has made all calls; the file system is as after the direct calls, and all
channels are closed (no goroutine is left behind).  It has died exactly if one of the direct calls panics. -/
theorem C126_end (g : Growth) (p : GokioFs.Prog) (fs : FS) {tr : List GokioFs.Val}
    {s : Config GokioFs.Val GokioFs.Val} (h : Run (GokioFs.begin_ g p fs) tr s) (hn : ∀ e s', ¬ Step s e s') :
    tr = (p.direct g fs).1 ∧
    ((∃ fs', (p.direct g fs).2 = .ok fs' ∧ s.crashed = false ∧ s.vars 0 = .fs fs' ∧ (∀ q ∈ s.procs, q = .done) ∧
        ∀ c ∈ s.chans, c.closed = true) ∨
      ((∃ e, (p.direct g fs).2 = .error e) ∧ s.crashed = true)) := by
  rcases GokioFs.run_at h with ⟨bs, ph, fs', ha, h1, h2⟩ | ⟨hc, h1, h2⟩
  · obtain ⟨rfl, hb⟩ := GokioFs.progress ha hn
    refine ⟨by rw [h1]; simp [GokioFs.Ph.rest, GokioFs.Prog.direct], .inl ⟨fs', h2, ha.live, ha.var, ?_, ?_⟩⟩
    · intro q hq
      obtain ⟨i, hi, rfl⟩ := List.mem_iff_getElem.1 hq
      rcases GokioFs.procs_cases ha (List.getElem?_eq_getElem hi) with ⟨_, e⟩ | ⟨j, b, _, hj, e⟩ | ⟨_, e⟩
      · exact e
      · rw [e, hb b (List.mem_of_getElem? hj)]
        rfl
      · cases e
    · intro c hc
      rw [ha.chans] at hc
      simp only [GokioFs.Ph.chan, List.append_nil, List.mem_map] at hc
      obtain ⟨b, hb', rfl⟩ := hc
      exact hb b hb'
  · exact ⟨h1.symm, .inr ⟨h2, hc⟩⟩

/-- C126: no execution goes on forever. -/
theorem C126_always_ends (g : Growth) (p : GokioFs.Prog) (fs : FS) (f : Nat → Config GokioFs.Val GokioFs.Val)
    (h0 : f 0 = GokioFs.begin_ g p fs) : ∃ i, ∀ e, ¬ Step (f i) e (f (i + 1)) := by
  apply Classical.byContradiction
  intro hno
  have hs : ∀ i, ∃ e, Step (f i) e (f (i + 1)) := by
    intro i
    apply Classical.byContradiction
    intro hi
    exact hno ⟨i, fun e he => hi ⟨e, he⟩⟩
  have down : ∀ m i bs ph fs, GokioFs.At g (f i) bs ph fs → ph.cost g fs + bs.count false ≤ m → False := by
    intro m
    induction m with
    | zero =>
      intro i bs ph fs hi hm
      obtain ⟨e, he⟩ := hs i
      rcases GokioFs.step_move hi he with ⟨_, _, _, mv, _⟩ | ⟨hc, _⟩
      · have := GokioFs.move_cost mv
        omega
      · obtain ⟨e, he⟩ := hs (i + 1)
        exact GokioFs.dead hc he
    | succ m ih =>
      intro i bs ph fs hi hm
      obtain ⟨e, he⟩ := hs i
      rcases GokioFs.step_move hi he with ⟨_, _, _, mv, ha⟩ | ⟨hc, _⟩
      · have := GokioFs.move_cost mv
        exact ih (i + 1) _ _ _ ha (by omega)
      · obtain ⟨e, he⟩ := hs (i + 1)
        exact GokioFs.dead hc he
  exact down _ 0 _ _ _ (h0 ▸ GokioFs.at_begin p fs) (Nat.le_refl _)

/-- Makes a directory, writes a file in it and reads the file back if the writing went well; then lists a
directory. -/
def GokioFs.sample : GokioFs.Prog :=
  .call (.createDir none ⟨true, [[99]]⟩) fun _ =>
  .call (.write none none ⟨true, [[99], [102]]⟩ [5, 6]) fun r =>
  match r with
  | .unit ⟨_, none⟩ => .call (.read none none ⟨true, [[99], [102]]⟩) fun _ =>
      .call (.readDir none ⟨true, [[99]]⟩) fun _ => .ret
  | _ => .ret

example : ((GokioFs.sample.direct doubling Fs.sample).1.map fun r => match r with
    | .unit r => r.err.isNone
    | .bytes r => r = Res.mkOk [5, 6]
    | .entries r => r.err.isNone
    | _ => false) = [true, true, true, true] := by decide +kernel
example : (match (GokioFs.sample.direct doubling Fs.sample).2 with
    | .ok fs => decide (Fs.HoldsAt fs 7 ⟨true, [[99], [102]]⟩ [5, 6])
    | .error _ => false) = true := by decide +kernel

/-- C126: every execution can be continued to its end. -/
theorem C126_reaches_end (g : Growth) (p : GokioFs.Prog) (fs : FS) {tr : List GokioFs.Val}
    {s : Config GokioFs.Val GokioFs.Val} (h : Run (GokioFs.begin_ g p fs) tr s) :
    ∃ tr' s', Run s tr' s' ∧ ∀ e u, ¬ Step s' e u := by
  have key : ∀ m bs ph fs s, GokioFs.At g s bs ph fs → ph.cost g fs + bs.count false ≤ m →
      ∃ tr' s', Run s tr' s' ∧ ∀ e u, ¬ Step s' e u := by
    intro m
    induction m with
    | zero =>
      intro bs ph fs s ha hm
      by_cases hs : ∃ e u, Step s e u
      · obtain ⟨e, u, st⟩ := hs
        rcases GokioFs.step_move ha st with ⟨_, _, _, mv, _⟩ | ⟨hc, _⟩
        · have := GokioFs.move_cost mv
          omega
        · exact ⟨_, u, .one st, fun _ _ => GokioFs.dead hc⟩
      · exact ⟨[], s, .nil s, fun e u st => hs ⟨e, u, st⟩⟩
    | succ m ih =>
      intro bs ph fs s ha hm
      by_cases hs : ∃ e u, Step s e u
      · obtain ⟨e, u, st⟩ := hs
        rcases GokioFs.step_move ha st with ⟨_, _, _, mv, ha'⟩ | ⟨hc, _⟩
        · have := GokioFs.move_cost mv
          obtain ⟨tr', s', hr, hn⟩ := ih _ _ _ _ ha' (by omega)
          exact ⟨_, s', (Run.one st).trans hr, hn⟩
        · exact ⟨_, u, .one st, fun _ _ => GokioFs.dead hc⟩
      · exact ⟨[], s, .nil s, fun e u st => hs ⟨e, u, st⟩⟩
  rcases GokioFs.run_at h with ⟨bs, ph, fs', ha, _⟩ | ⟨hc, _⟩
  · exact key _ bs ph fs' s ha (Nat.le_refl _)
  · exact ⟨[], s, .nil s, fun _ _ => GokioFs.dead hc⟩

/-- All executions of the sample program that cannot go on, and there are some, have read the two bytes back. -/
example : ∃ tr s, Run (GokioFs.begin_ doubling GokioFs.sample Fs.sample) tr s ∧ (∀ e u, ¬ Step s e u) ∧
    tr[2]? = some (.bytes (Res.mkOk [5, 6])) := by
  obtain ⟨tr, s, h, hn⟩ := C126_reaches_end doubling GokioFs.sample Fs.sample (.nil _)
  refine ⟨tr, s, h, hn, ?_⟩
  rw [(C126_end _ _ _ h hn).1]
  rfl

end Gost
