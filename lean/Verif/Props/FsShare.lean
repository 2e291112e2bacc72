import Verif.Props.FsListing
/-
Programs that write in directories of their own and read what nobody writes (C177), system call by system call.
-/
namespace Gost
open Os Fs Spec

namespace Spec
/-- A call that changes nothing. -/
def Reads : Call → Prop
  | .read _ => True
  | .readDir _ => True
  | _ => False

/-- A program works below its directory and reads below the shared ones. -/
def Shares {σ : Type} (plan : Plan) (base : List Name) (shared : σ → List Name) : Prop :=
  ∀ out c, plan out = some c →
    (∀ x ∈ c.paths, Within base x) ∨ (Reads c ∧ ∃ z, ∀ x ∈ c.paths, Within (shared z) x)
end Spec

namespace Fs.Apart
open Iso Confine Undo

/-- A call that changes nothing, on its way. -/
def Reader : Task → Prop
  | .start c => Reads c
  | .opened _ => True
  | .sized _ _ => True
  | .listing _ => True
  | .idle => True
  | .done _ => True
  | _ => False

theorem reader_next {t : Task} (h : Reader t) (amount : Nat) (fault : Option Errno) (fs : FS) :
    (t.next amount fault fs).2 = fs ∧ Reader (t.next amount fault fs).1 := by
  cases t with
  | idle => exact ⟨rfl, trivial⟩
  | done o => exact ⟨rfl, trivial⟩
  | opened i => cases fault <;> exact ⟨rfl, trivial⟩
  | sized i n => simp only [Task.next]; split <;> exact ⟨rfl, trivial⟩
  | listing i =>
    simp only [Task.next]
    cases fault with
    | some e => exact ⟨rfl, trivial⟩
    | none => simp only; split <;> exact ⟨rfl, trivial⟩
  | start c =>
    cases c with
    | read x => simp only [Task.next]; split <;> exact ⟨rfl, trivial⟩
    | readDir x => simp only [Task.next]; split <;> exact ⟨rfl, trivial⟩
    | _ => exact h.elim
  | _ => exact h.elim

theorem reader_rel {R : Nat → Nat → Prop} {gs : FS} {t t' : Task} (r : Rel R gs t t') (h : Reader t) : Reader t' := by
  cases r <;> exact h

section
variable {σ ι : Type} {fs gs fs' gs' : FS} {plan : Plan} {base : List Name} {a : Nat} {shared : σ → List Name} {stop : σ → Nat}

/-- A program is in a call below its directory, or in one that reads below a shared one. -/
def Fine (fs : FS) (base : List Name) (a : Nat) (shared : σ → List Name) (stop : σ → Nat) (t : Task) : Prop :=
  Ok fs base a t ∨ Reader t ∧ ∃ z, Ok fs (shared z) (stop z) t

theorem begin_fine (hp : Shares plan base shared) (out : List Outcome) : Fine fs base a shared stop (plan.begin out).now := by
  unfold Plan.begin
  match h : plan out with
  | none => exact Or.inl (ok_free rfl rfl)
  | some c =>
    rcases hp out c h with h1 | ⟨h1, z, h2⟩
    · exact Or.inl ⟨h1, by simp [Task.inodes]⟩
    · exact Or.inr ⟨h1, z, h2, by simp [Task.inodes]⟩

theorem step_fine (p : PlainDir fs base a) (ps : ∀ z, PlainDir fs (shared z) (stop z)) (hp : Shares plan base shared)
    {g : Prog} (ok : Fine fs base a shared stop g.now) (amount : Nat) (fault : Option Errno) :
    Good fs a (Prog.step plan amount fault (fs, g)).1 ∧
      Fine (Prog.step plan amount fault (fs, g)).1 base a shared stop (Prog.step plan amount fault (fs, g)).2.now := by
  have key : Good fs a (g.now.next amount fault fs).2 ∧
      Fine (g.now.next amount fault fs).2 base a shared stop (g.now.next amount fault fs).1 := by
    rcases ok with ok | ⟨h1, z, h2⟩
    · obtain ⟨k1, k2⟩ := next_good p ok amount fault
      exact ⟨k1, Or.inl k2⟩
    · obtain ⟨e1, e2⟩ := reader_next h1 amount fault fs
      have k := (next_good (ps z) h2 amount fault).2
      refine ⟨?_, Or.inr ⟨e2, z, k⟩⟩
      rw [e1]
      exact good_refl p
  obtain ⟨h1, h2⟩ := key
  unfold Prog.step
  simp only
  match hn : g.now.next amount fault fs with
  | (t, fs') =>
    rw [hn] at h1 h2
    cases t <;> first | exact ⟨h1, begin_fine hp _⟩ | exact ⟨h1, h2⟩

/-- Two programs are at the same place, in two file systems. -/
def Pair (fs gs : FS) (a : Nat) (base : List Name) (shared : σ → List Name) (stop : σ → Nat) (t t' : Task) : Prop :=
  (Ok fs base a t ∧ Ok gs base a t' ∧ Rel (via fs a gs a) gs t t') ∨
    (Reader t ∧ ∃ z, Ok fs (shared z) (stop z) t ∧ Ok gs (shared z) (stop z) t' ∧ Rel (via fs (stop z) gs (stop z)) gs t t')

theorem begin_pair (hp : Shares plan base shared) (out : List Outcome) :
    Pair fs gs a base shared stop (plan.begin out).now (plan.begin out).now := by
  unfold Plan.begin
  match h : plan out with
  | none => exact Or.inl ⟨ok_free rfl rfl, ok_free rfl rfl, .idle⟩
  | some c =>
    rcases hp out c h with h1 | ⟨h1, z, h2⟩
    · exact Or.inl ⟨⟨h1, by simp [Task.inodes]⟩, ⟨h1, by simp [Task.inodes]⟩, .start c⟩
    · exact Or.inr ⟨h1, z, ⟨h2, by simp [Task.inodes]⟩, ⟨h2, by simp [Task.inodes]⟩, .start c⟩

theorem step_pair (p : PlainDir fs base a) (p' : PlainDir gs base a) (ps : ∀ z, PlainDir fs (shared z) (stop z))
    (ps' : ∀ z, PlainDir gs (shared z) (stop z)) (hs : SameBelow fs a gs a)
    (hss : ∀ z, SameBelow fs (stop z) gs (stop z)) (hl : fs.limit = gs.limit)
    (hz : ∀ i, fs.dirSize i ≠ 0) (hz' : ∀ i, gs.dirSize i ≠ 0) (o : NamesOnce fs) (o' : NamesOnce gs)
    (hp : Shares plan base shared) {g g' : Prog} (r : Pair fs gs a base shared stop g.now g'.now) (ho : g.out = g'.out)
    (amount : Nat) (fault : Option Errno) :
    Good gs a (Prog.step plan amount fault (gs, g')).1 ∧
    SameBelow (Prog.step plan amount fault (fs, g)).1 a (Prog.step plan amount fault (gs, g')).1 a ∧
    Pair (Prog.step plan amount fault (fs, g)).1 (Prog.step plan amount fault (gs, g')).1 a base shared stop
      (Prog.step plan amount fault (fs, g)).2.now (Prog.step plan amount fault (gs, g')).2.now ∧
    (Prog.step plan amount fault (fs, g)).2.out = (Prog.step plan amount fault (gs, g')).2.out := by
  have key : Good gs a (g'.now.next amount fault gs).2 ∧
      SameBelow (g.now.next amount fault fs).2 a (g'.now.next amount fault gs).2 a ∧
      Pair (g.now.next amount fault fs).2 (g'.now.next amount fault gs).2 a base shared stop
        (g.now.next amount fault fs).1 (g'.now.next amount fault gs).1 := by
    rcases r with ⟨k1, k2, k3⟩ | ⟨k0, z, k1, k2, k3⟩
    · obtain ⟨h1, h2⟩ := next_twin p p' hs hl hz hz' o o' k1 k3 amount fault
      obtain ⟨h3, h4⟩ := next_good p' k2 amount fault
      exact ⟨h3, h1, Or.inl ⟨(next_good p k1 amount fault).2, h4, h2⟩⟩
    · obtain ⟨-, h2⟩ := next_twin (ps z) (ps' z) (hss z) hl hz hz' o o' k1 k3 amount fault
      obtain ⟨e1, e2⟩ := reader_next k0 amount fault fs
      obtain ⟨e3, -⟩ := reader_next (reader_rel k3 k0) amount fault gs
      refine ⟨?_, ?_, Or.inr ⟨e2, z, (next_good (ps z) k1 amount fault).2, (next_good (ps' z) k2 amount fault).2, h2⟩⟩
      · rw [e3]; exact good_refl p'
      · rw [e1, e3]; exact hs
  obtain ⟨h0, h1, h2⟩ := key
  unfold Prog.step
  simp only
  match hn : g.now.next amount fault fs, hn' : g'.now.next amount fault gs with
  | (t, fs'), (t', gs') =>
    rw [hn'] at h0
    rw [hn, hn'] at h1 h2
    simp only at h0 h1 h2
    have hr : ∃ R, Rel R gs' t t' := by
      rcases h2 with ⟨-, -, k⟩ | ⟨-, z, -, -, k⟩ <;> exact ⟨_, k⟩
    obtain ⟨R, hr⟩ := hr
    cases hr with
    | done o =>
      simp only [ho]
      exact ⟨h0, h1, begin_pair hp _, trivial⟩
    | _ => exact ⟨h0, h1, h2, ho⟩

variable [DecidableEq ι] {plans : ι → Plan} {bases : ι → List Name} {tops : ι → Nat}

/-- Nothing has changed below a directory. -/
def Still (fs0 : FS) (s : Nat) (fs : FS) : Prop :=
  (∀ q, reach fs s q = reach fs0 s q) ∧ ∀ q k, reach fs0 s q = some k → fs.nodes[k]? = fs0.nodes[k]?

theorem Still.same {fs0 : FS} {s : Nat} (h : Still fs0 s fs) (h' : Still fs0 s gs) : SameBelow fs s gs s :=
  same_left (same_refl gs s) (fun q => (h.1 q).trans (h'.1 q).symm) fun q k hk => by
    rw [h'.1 q] at hk
    exact (h.2 q k hk).trans (h'.2 q k hk).symm

theorem Still.step {fs0 : FS} {s : Nat} (h : Still fs0 s fs) (hr : ∀ q, reach fs' s q = reach fs s q)
    (hn : ∀ q k, reach fs s q = some k → fs'.nodes[k]? = fs.nodes[k]?) : Still fs0 s fs' :=
  ⟨fun q => (hr q).trans (h.1 q), fun q k hk => (hn q k ((h.1 q).trans hk)).trans (h.2 q k hk)⟩

/-- Everybody works in a directory of its own and reads in the shared ones. -/
structure AllS (fs0 : FS) (bases : ι → List Name) (tops : ι → Nat) (shared : σ → List Name) (stop : σ → Nat)
    (s : FS × (ι → Prog)) : Prop where
  plain : ∀ k, PlainDir s.1 (bases k) (tops k)
  splain : ∀ z, PlainDir s.1 (shared z) (stop z)
  apart : ∀ j k, j ≠ k → ApartDirs s.1 (tops j) (tops k)
  sapart : ∀ j z, ApartDirs s.1 (tops j) (stop z)
  still : ∀ z, Still fs0 (stop z) s.1
  fine : ∀ k, Fine s.1 (bases k) (tops k) shared stop (s.2 k).now
  size : ∀ i, s.1.dirSize i ≠ 0
  once : NamesOnce s.1

/-- One of them is where it would be alone. -/
structure OwnS (fs0 : FS) (bases : ι → List Name) (tops : ι → Nat) (shared : σ → List Name) (stop : σ → Nat) (k : ι)
    (s : FS × (ι → Prog)) (s' : FS × Prog) : Prop where
  plain : PlainDir s'.1 (bases k) (tops k)
  splain : ∀ z, PlainDir s'.1 (shared z) (stop z)
  sapart : ∀ z, ApartDirs s'.1 (tops k) (stop z)
  still : ∀ z, Still fs0 (stop z) s'.1
  size : ∀ i, s'.1.dirSize i ≠ 0
  once : NamesOnce s'.1
  limit : s.1.limit = s'.1.limit
  same : SameBelow s.1 (tops k) s'.1 (tops k)
  pair : Pair s.1 s'.1 (tops k) (bases k) shared stop (s.2 k).now s'.2.now
  out : (s.2 k).out = s'.2.out

theorem ok_other {t : Task} {b : List Name} {c : Nat} (h : Ok fs b c t) (hr : ∀ q, reach fs' c q = reach fs c q) : Ok fs' b c t := by
  refine ⟨h.paths, fun i hi => ?_⟩
  obtain ⟨q, hq⟩ := h.inodes i hi
  exact ⟨q, (hr q).trans hq⟩

theorem run_shared {fs0 : FS} (hp : ∀ k, Shares (plans k) (bases k) shared) {k : ι} (sched : List (ι × Nat × Option Errno))
    {s : FS × (ι → Prog)} {s' : FS × Prog} (w : AllS fs0 bases tops shared stop s) (o : OwnS fs0 bases tops shared stop k s s') :
    AllS fs0 bases tops shared stop (runApart plans s sched) ∧
    OwnS fs0 bases tops shared stop k (runApart plans s sched)
      (runAlone (plans k) s' ((sched.filter (·.1 = k)).map (·.2))) := by
  induction sched generalizing s s' with
  | nil => exact ⟨w, o⟩
  | cons x sched ih =>
    obtain ⟨j, amount, fault⟩ := x
    obtain ⟨g1, g2⟩ := step_fine (w.plain j) w.splain (hp j) (w.fine j) amount fault
    have hoth : ∀ l, l ≠ j → _ := fun l hl => other_step (w.plain j) (w.plain l) (w.apart j l fun e => hl e.symm) g1
    have hsh : ∀ z, _ := fun z => other_step (w.plain j) (w.splain z) (w.sapart j z) g1
    have w' : AllS fs0 bases tops shared stop ((Prog.step (plans j) amount fault (s.1, s.2 j)).1,
        fun l => if l = j then (Prog.step (plans j) amount fault (s.1, s.2 j)).2 else s.2 l) := by
      refine ⟨?_, fun z => (hsh z).1, ?_, ?_, fun z => (w.still z).step (hsh z).2.2.1 (hsh z).2.2.2, ?_, ?_, g1.once w.once⟩
      · intro l
        by_cases hl : l = j
        · subst hl; exact plain_step (w.plain l) g1
        · exact (hoth l hl).1
      · intro l m hlm
        by_cases hl : l = j
        · subst hl; exact (hoth m fun e => hlm e.symm).2.1
        · by_cases hm : m = j
          · subst hm; exact apart_symm (hoth l hl).2.1
          · intro q q' i h1 h2
            rw [(hoth l hl).2.2.1] at h1
            rw [(hoth m hm).2.2.1] at h2
            exact w.apart l m hlm q q' i h1 h2
      · intro l z
        by_cases hl : l = j
        · subst hl; exact (hsh z).2.1
        · intro q q' i h1 h2
          rw [(hoth l hl).2.2.1] at h1
          rw [(hsh z).2.2.1] at h2
          exact w.sapart l z q q' i h1 h2
      · intro l
        by_cases hl : l = j
        · subst hl; simp only [if_true]; exact g2
        · simp only [if_neg hl]
          rcases w.fine l with h | ⟨h1, z, h2⟩
          · exact Or.inl (ok_other h (hoth l hl).2.2.1)
          · exact Or.inr ⟨h1, z, ok_other h2 (hsh z).2.2.1⟩
      · exact fun i h => w.size i ((congrFun g1.size i).symm.trans h)
    have hrun : runApart plans s ((j, amount, fault) :: sched) = runApart plans
        ((Prog.step (plans j) amount fault (s.1, s.2 j)).1,
          fun l => if l = j then (Prog.step (plans j) amount fault (s.1, s.2 j)).2 else s.2 l) sched := rfl
    rw [hrun]
    by_cases hk : j = k
    · subst hk
      have hf : ((((j, amount, fault) :: sched).filter (·.1 = j)).map (·.2)) =
          (amount, fault) :: (sched.filter (·.1 = j)).map (·.2) := by simp
      rw [hf]
      obtain ⟨t0, t1, t2, t3⟩ := step_pair (w.plain j) o.plain w.splain o.splain o.same
        (fun z => (w.still z).same (o.still z)) o.limit w.size o.size w.once o.once (hp j) o.pair o.out amount fault
      have hsh' : ∀ z, _ := fun z => other_step o.plain (o.splain z) (o.sapart z) t0
      refine ih w' (s' := Prog.step (plans j) amount fault s') ⟨plain_step o.plain t0, fun z => (hsh' z).1,
        fun z => (hsh' z).2.1, fun z => (o.still z).step (hsh' z).2.2.1 (hsh' z).2.2.2, ?_, t0.once o.once, ?_, t1, ?_, ?_⟩
      · exact fun i h => o.size i ((congrFun t0.size i).symm.trans h)
      · exact (g1.eff.limit.trans o.limit).trans t0.eff.limit.symm
      · simp only [if_true]; exact t2
      · simp only [if_true]; exact t3
    · have hf : ((((j, amount, fault) :: sched).filter (·.1 = k)).map (·.2)) = (sched.filter (·.1 = k)).map (·.2) := by
        simp [hk]
      rw [hf]
      obtain ⟨z1, z2, z3, z4⟩ := hoth k fun e => hk e.symm
      refine ih w' ⟨o.plain, o.splain, o.sapart, o.still, o.size, o.once, g1.eff.limit.trans o.limit,
        same_left o.same z3 z4, ?_, ?_⟩
      · simp only [if_neg fun e : k = j => hk e.symm]
        rcases o.pair with ⟨k1, k2, k3⟩ | ⟨k0, z, k1, k2, k3⟩
        · refine Or.inl ⟨ok_other k1 z3, k2, k3.mono ?_⟩
          rintro i l ⟨q, h1, h2⟩
          exact ⟨q, (z3 q).trans h1, h2⟩
        · refine Or.inr ⟨k0, z, ok_other k1 (hsh z).2.2.1, k2, k3.mono ?_⟩
          rintro i l ⟨q, h1, h2⟩
          exact ⟨q, ((hsh z).2.2.1 q).trans h1, h2⟩
      · simp only [if_neg fun e : k = j => hk e.symm]; exact o.out
end
end Fs.Apart

open Fs.Apart in
/-- C177: programs that share only what nobody writes do not disturb each other.  As in C176, any number of programs work
below directories of their own; besides, each may Read and ReadDir below any of the shared directories, which have nothing
in common with the directories of the programs (but may overlap each other).  However the system calls are mixed, each
program gets the results it gets alone, below its directory there is what there is alone, and below the shared
directories there is what there was. -/
theorem C177_shared {ι σ : Type} [DecidableEq ι] (fs : FS) (plan : ι → Plan) (base : ι → List Name) (top : ι → Nat)
    (shared : σ → List Name) (stop : σ → Nat) (hd : ∀ k, PlainDir fs (base k) (top k))
    (hd' : ∀ z, PlainDir fs (shared z) (stop z)) (ha : ∀ j k, j ≠ k → ApartDirs fs (top j) (top k))
    (ha' : ∀ j z, ApartDirs fs (top j) (stop z)) (hp : ∀ k, Shares (plan k) (base k) shared)
    (hz : ∀ i, fs.dirSize i ≠ 0) (hn : NamesOnce fs) (sched : List (ι × Nat × Option Errno)) (k : ι) :
    let all := runApart plan (fs, fun k => (plan k).begin []) sched
    let alone := runAlone (plan k) (fs, (plan k).begin []) ((sched.filter (·.1 = k)).map (·.2))
    (all.2 k).out = alone.2.out ∧ SameBelow all.1 (top k) alone.1 (top k) ∧
      ((all.2 k).now = .idle ↔ alone.2.now = .idle) ∧ ∀ z, SameBelow all.1 (stop z) fs (stop z) := by
  have st : ∀ z, Still fs (stop z) fs := fun z => ⟨fun _ => rfl, fun _ _ _ => rfl⟩
  have w : AllS fs base top shared stop (fs, fun k => (plan k).begin []) :=
    ⟨hd, hd', ha, ha', st, fun k => begin_fine (hp k) [], hz, hn⟩
  obtain ⟨w, o⟩ := run_shared hp sched w (k := k) (s' := (fs, (plan k).begin []))
    ⟨hd k, hd', ha' k, st, hz, hn, rfl, same_refl fs (top k), begin_pair (hp k) [], rfl⟩
  refine ⟨o.out, o.same, ?_, fun z => (w.still z).same (st z)⟩
  have hr : ∃ R, Rel R (runAlone (plan k) (fs, (plan k).begin []) ((sched.filter (·.1 = k)).map (·.2))).1
      ((runApart plan (fs, fun k => (plan k).begin []) sched).2 k).now
      (runAlone (plan k) (fs, (plan k).begin []) ((sched.filter (·.1 = k)).map (·.2))).2.now := by
    rcases o.pair with ⟨-, -, h⟩ | ⟨-, z, -, -, h⟩ <;> exact ⟨_, h⟩
  obtain ⟨R, hr⟩ := hr
  generalize ((runApart plan (fs, fun k => (plan k).begin []) sched).2 k).now = t at hr ⊢
  generalize (runAlone (plan k) (fs, (plan k).begin []) ((sched.filter (·.1 = k)).map (·.2))).2.now = t' at hr ⊢
  cases hr <;> exact ⟨fun h => (by cases h; try rfl), fun h => (by cases h; try rfl)⟩

open Fs.Apart in
/-- C177: if no system call of a program fails, it gets what the functions return if they are called one after another and
each is done at once. -/
theorem C177_atonce {ι σ : Type} [DecidableEq ι] (fs : FS) (plan : ι → Plan) (base : ι → List Name) (top : ι → Nat)
    (shared : σ → List Name) (stop : σ → Nat) (hd : ∀ k, PlainDir fs (base k) (top k))
    (hd' : ∀ z, PlainDir fs (shared z) (stop z)) (ha : ∀ j k, j ≠ k → ApartDirs fs (top j) (top k))
    (ha' : ∀ j z, ApartDirs fs (top j) (stop z)) (hp : ∀ k, Shares (plan k) (base k) shared)
    (hz : ∀ i, fs.dirSize i ≠ 0) (hn : NamesOnce fs) (sched : List (ι × Nat × Option Errno)) (k : ι)
    (hf : ∀ x ∈ sched, x.1 = k → x.2.2 = none) :
    let all := runApart plan (fs, fun k => (plan k).begin []) sched
    ∃ n, (all.2 k).out = ((plan k).calls (fs, []) n).2 ∧
      ((all.2 k).now = .idle → SameBelow all.1 (top k) ((plan k).calls (fs, []) n).1 (top k)) := by
  obtain ⟨h1, h2, h3, -⟩ := C177_shared fs plan base top shared stop hd hd' ha ha' hp hz hn sched k
  have key : ∀ (l : List (Nat × Option Errno)) (s : FS × Prog), (∀ x ∈ l, x.2 = none) → At (plan k) fs s →
      At (plan k) fs (runAlone (plan k) s l) := by
    intro l
    induction l with
    | nil => exact fun s _ h => h
    | cons x l ih =>
      intro s hl h
      refine ih _ (fun y hy => hl y (List.mem_cons_of_mem _ hy)) ?_
      show At (plan k) fs (Prog.step (plan k) x.1 x.2 s)
      rw [hl x List.mem_cons_self]
      exact at_step h x.1
  have hat := key ((sched.filter (·.1 = k)).map (·.2)) (fs, (plan k).begin []) (by
    intro x hx
    obtain ⟨y, hy, rfl⟩ := List.mem_map.1 hx
    obtain ⟨hy1, hy2⟩ := List.mem_filter.1 hy
    exact hf y hy1 (by simpa using hy2)) (at_begin (n := 0) rfl)
  obtain ⟨n, k1, k2⟩ := hat
  refine ⟨n, h1.trans k1, fun hi => ?_⟩
  rw [h3] at hi
  rcases k2 with ⟨-, -, k3⟩ | ⟨c, -, k3⟩
  · rw [← k3]; exact h2
  · rw [hi] at k3; cases k3

open Fs.Apart in
/-- C177: a program that makes `n` calls when it runs alone has finished after a certain number of turns, with the results
of these calls, whatever the others have done meanwhile, provided that its own system calls do not fail and each of its
writes writes something. -/
theorem C177_finishes {ι σ : Type} [DecidableEq ι] (fs : FS) (plan : ι → Plan) (base : ι → List Name) (top : ι → Nat)
    (shared : σ → List Name) (stop : σ → Nat) (hd : ∀ k, PlainDir fs (base k) (top k))
    (hd' : ∀ z, PlainDir fs (shared z) (stop z)) (ha : ∀ j k, j ≠ k → ApartDirs fs (top j) (top k))
    (ha' : ∀ j z, ApartDirs fs (top j) (stop z)) (hp : ∀ k, Shares (plan k) (base k) shared)
    (hz : ∀ i, fs.dirSize i ≠ 0) (hn : NamesOnce fs) (k : ι) (n : Nat) (hf : plan k ((plan k).calls (fs, []) n).2 = none) :
    ∃ N, ∀ sched : List (ι × Nat × Option Errno), (∀ x ∈ sched, x.1 = k → 0 < x.2.1 ∧ x.2.2 = none) →
      N ≤ (sched.filter (·.1 = k)).length →
      let all := runApart plan (fs, fun k => (plan k).begin []) sched
      (all.2 k).now = .idle ∧ (all.2 k).out = ((plan k).calls (fs, []) n).2 ∧
        SameBelow all.1 (top k) ((plan k).calls (fs, []) n).1 (top k) := by
  obtain ⟨N, hN⟩ := prog_ends (plan := plan k) (fs0 := fs) n 0 (by rw [Nat.zero_add]; exact hf)
  refine ⟨N, fun sched hs hl => ?_⟩
  obtain ⟨h1, h2, h3, -⟩ := C177_shared fs plan base top shared stop hd hd' ha ha' hp hz hn sched k
  have key := hN ((sched.filter (·.1 = k)).map (·.2)) (by rw [List.length_map]; exact hl) (by
    intro x hx
    obtain ⟨y, hy, rfl⟩ := List.mem_map.1 hx
    obtain ⟨hy1, hy2⟩ := List.mem_filter.1 hy
    exact hs y hy1 (by simpa using hy2))
  rw [Nat.zero_add] at key
  change runAlone (plan k) (fs, (plan k).begin []) _ = _ at key
  rw [key] at h1 h2 h3
  exact ⟨h3.2 rfl, h1, h2⟩

/-! Concrete case: two programs, in `/a` and in `/b`, both read `/c/x` and write what they have read under `n` in their
directory. -/
def Fs.threeDirs : FS := runAll Fs.blank [.createDir none ⟨true, [[97]]⟩, .createDir none ⟨true, [[98]]⟩,
  .createDir none ⟨true, [[99]]⟩, .write none none ⟨true, [[99], [120]]⟩ [7, 8]]
def Fs.readers (k : Bool) : Plan := fun out =>
  match out with
  | [] => some (.read ⟨true, [[99], [120]]⟩)
  | [.data r] => some (.write ⟨true, [[if k then 97 else 98], [110]]⟩ (r.ok.getD []))
  | [_, _] => some (.readDir ⟨true, [[99], [46]]⟩)
  | _ => none
def Fs.readersBase (k : Bool) : List Name := [[if k then 97 else 98]]
def Fs.readersTop (k : Bool) : Nat := if k then 1 else 2

theorem Fs.three_hyps : (∀ k, PlainDir Fs.threeDirs (Fs.readersBase k) (Fs.readersTop k)) ∧
    (∀ _ : Unit, PlainDir Fs.threeDirs [[99]] 3) ∧
    (∀ j k, j ≠ k → ApartDirs Fs.threeDirs (Fs.readersTop j) (Fs.readersTop k)) ∧
    (∀ j, ∀ _ : Unit, ApartDirs Fs.threeDirs (Fs.readersTop j) 3) ∧
    (∀ k, Shares (Fs.readers k) (Fs.readersBase k) fun _ : Unit => [[99]]) ∧
    (∀ i, Fs.threeDirs.dirSize i ≠ 0) ∧ NamesOnce Fs.threeDirs := by
  have n1 : Fs.threeDirs.nodes[1]? = some (.dir 0 []) := by decide +kernel
  have n2 : Fs.threeDirs.nodes[2]? = some (.dir 0 []) := by decide +kernel
  have n3 : Fs.threeDirs.nodes[3]? = some (.dir 0 [([120], 4)]) := by decide +kernel
  have n4 : Fs.threeDirs.nodes[4]? = some (.file [7, 8]) := by decide +kernel
  have s1 : Fs.Confine.Shut (fun k => k = 1) Fs.threeDirs :=
    ⟨by rintro i n k rfl h; simp [inode, n1] at h, by rintro i p rfl h; rw [n1] at h; cases h⟩
  have s2 : Fs.Confine.Shut (fun k => k = 2) Fs.threeDirs :=
    ⟨by rintro i n k rfl h; simp [inode, n2] at h, by rintro i p rfl h; rw [n2] at h; cases h⟩
  have s3 : Fs.Confine.Shut (fun k => k = 3 ∨ k = 4) Fs.threeDirs := by
    refine ⟨?_, ?_⟩
    · rintro i n k (rfl | rfl) h
      · rw [entry_of n3] at h
        simp only [List.lookup] at h
        repeat' split at h
        all_goals cases h
        all_goals simp
      · simp [inode, n4] at h
    · rintro i p (rfl | rfl) h
      · rw [n3] at h; cases h
      · rw [n4] at h; cases h
  have t : Tree Fs.threeDirs := runAll_tree Fs.blank_tree _
  have r1 : ∀ {q k}, reach Fs.threeDirs 1 q = some k → k = 1 := fun h => Fs.Iso.inside_reach s1 rfl h
  have r2 : ∀ {q k}, reach Fs.threeDirs 2 q = some k → k = 2 := fun h => Fs.Iso.inside_reach s2 rfl h
  have r3 : ∀ {q k}, reach Fs.threeDirs 3 q = some k → k = 3 ∨ k = 4 := fun h => Fs.Iso.inside_reach s3 (Or.inl rfl) h
  have w : ∀ b n : Nat, Within [[UInt8.ofNat b]] ⟨true, [[UInt8.ofNat b], [UInt8.ofNat n]]⟩ := by
    intro b n
    refine ⟨[[UInt8.ofNat n]], by simp, ?_, rfl⟩
    intro h
    rw [List.mem_singleton] at h
    exact absurd (congrArg List.length h) (by simp [dotdot])
  refine ⟨?_, fun _ => ⟨t, by decide +kernel, ⟨_, _, n3⟩, fun q k p h => s3.nolink k p (r3 h)⟩, ?_, ?_, ?_, ?_,
    runAll_once Fs.blank_once _⟩
  · rintro (_ | _)
    · exact ⟨t, by decide +kernel, ⟨_, _, n2⟩, fun q k p h => s2.nolink k p (r2 h)⟩
    · exact ⟨t, by decide +kernel, ⟨_, _, n1⟩, fun q k p h => s1.nolink k p (r1 h)⟩
  · rintro (_ | _) (_ | _) h q q' k h1 h2
    · exact h rfl
    · have := r2 h1; have := r1 h2; omega
    · have := r1 h1; have := r2 h2; omega
    · exact h rfl
  · rintro (_ | _) _ q q' k h1 h2
    · have := r2 h1; have := r3 h2; omega
    · have := r1 h1; have := r3 h2; omega
  · intro k out c h
    unfold Fs.readers at h
    split at h
    · cases h
      exact Or.inr ⟨trivial, (), by simpa [Call.paths] using w 99 120⟩
    · cases h
      refine Or.inl ?_
      cases k
      · simpa [Call.paths, Fs.readersBase] using w 98 110
      · simpa [Call.paths, Fs.readersBase] using w 97 110
    · cases h
      exact Or.inr ⟨trivial, (), by simpa [Call.paths] using w 99 46⟩
    · cases h
  · intro i h
    have : Fs.threeDirs.dirSize = fun _ => 4096 := rfl
    rw [this] at h
    cases h

/- The system calls in turns: both have written what was in `/c/x`. -/
example :
    let sched : List (Bool × Nat × Option Errno) := (List.replicate 9 [(true, 1, none), (false, 2, none)]).flatten
    let all := runApart Fs.readers (Fs.threeDirs, fun k => (Fs.readers k).begin []) sched
    (∀ k, (all.2 k).out.take 2 = [.data (Res.mkOk [7, 8]), .unit (Res.mkOk ())]) ∧ (∀ k, (all.2 k).out.length = 3) ∧
    Fs.read none none all.1 ⟨true, [[97], [110]]⟩ = Res.mkOk [7, 8] ∧
    Fs.read none none all.1 ⟨true, [[98], [110]]⟩ = Res.mkOk [7, 8] := by
  refine ⟨?_, ?_, by decide +kernel, by decide +kernel⟩ <;> rintro (_ | _) <;> decide +kernel
example (sched : List (Bool × Nat × Option Errno)) (k : Bool) := C177_shared Fs.threeDirs Fs.readers Fs.readersBase
  Fs.readersTop (fun _ : Unit => [[99]]) (fun _ => 3) Fs.three_hyps.1 Fs.three_hyps.2.1 Fs.three_hyps.2.2.1
  Fs.three_hyps.2.2.2.1 Fs.three_hyps.2.2.2.2.1 Fs.three_hyps.2.2.2.2.2.1 Fs.three_hyps.2.2.2.2.2.2 sched k
/- If one of them may write what is shared, the other notices. -/
example :
    let plan : Bool → Plan := fun k out => match k, out with
      | true, [] => some (.read ⟨true, [[99], [120]]⟩)
      | false, [] => some (.write ⟨true, [[99], [120]]⟩ [1])
      | _, _ => none
    ((runApart plan (Fs.threeDirs, fun k => (plan k).begin [])
      [(true, 0, none), (true, 0, none), (false, 0, none), (true, 0, none)]).2 true).out ≠
        [.data (Res.mkOk [7, 8])] ∧
    (runAlone (plan true) (Fs.threeDirs, (plan true).begin []) [(0, none), (0, none), (0, none)]).2.out =
      [.data (Res.mkOk [7, 8])] := by
  decide +kernel
/- Nor may Copy take a file out of what is shared: the copy is the file itself, under a second name. -/
example :
    let plan : Bool → Plan := fun k out => match k, out with
      | true, [] => some (.read ⟨true, [[99], [120]]⟩)
      | false, [] => some (.copy ⟨true, [[99], [120]]⟩ ⟨true, [[98], [121]]⟩)
      | false, [_] => some (.write ⟨true, [[98], [121]]⟩ [1])
      | _, _ => none
    ((runApart plan (Fs.threeDirs, fun k => (plan k).begin [])
      [(false, 0, none), (false, 0, none), (false, 1, none), (true, 0, none), (true, 0, none), (true, 0, none)]).2 true).out =
        [.data (Res.mkOk [1])] := by
  decide +kernel
end Gost
