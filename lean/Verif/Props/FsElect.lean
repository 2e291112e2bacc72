import Verif.Props.FsTree
/-
Property C169: CreateDir elects one winner, a directory serves as a lock, and a file can be claimed once by Rename
or RemoveFile.

Several processes work in one file system.  CreateDir, Copy, Rename, RemoveFile and RemoveDir take effect in one system
call (os.Remove makes two, of which at most one has an effect; os.Rename looks at the new name first), so what the
processes do together is a sequence of calls, by whomever.  A Write makes or empties the file in one call and fills it
in others; the names, which are what counts here, change with the first only.
-/
namespace Gost
open Os Fs Spec

namespace Fs
/-- What the call of a history returns. -/
def Op.result (fs : FS) : Op → Res Errno Unit
  | .createDir f p => (Fs.createDir f fs p).1
  | .write cf wf p data => (Fs.write cf wf fs p data).1
  | .copy f a b => (Fs.copy f fs a b).1
  | .removeFile f p => (Fs.removeFile f fs p).1
  | .removeDir f p => (Fs.removeDir f fs p).1
  | .rename f a b => (Fs.rename f fs a b).1

/-- The calls of a history that return Ok, in order. -/
def okCalls (fs : FS) : List Op → List Op
  | [] => []
  | op :: ops => (if op.result fs = Res.mkOk () then [op] else []) ++ okCalls (op.run fs) ops
end Fs

namespace Spec
/-- The call leaves what is on the path: it removes nothing on it, puts nothing in its place and renames nothing on
it. -/
def Spares (q : List Name) (fs : FS) (op : Op) : Prop :=
  ∀ r k, r <+: q → reach fs 0 r = some k →
    ¬ op.Drops fs k ∧ ∀ (f : Option Errno) (a b : Path), op = .rename f a b → resolve fs false a ≠ .found k

/-- The call leaves the path alone: it does not make it either. -/
def Avoids (q : List Name) (fs : FS) (op : Op) : Prop :=
  Spares q fs op ∧ (reach fs 0 q = none → reach (op.run fs) 0 q = none)

/-- Processes that use the directory `/q` as a lock: who wants it calls CreateDir until it returns Ok, who has it
calls RemoveDir to give it back; `held` is what they know from the results.  Meanwhile anyone makes other calls, those
that `P` allows.  Every call may fail. -/
inductive LockStep (P : FS → Op → Prop) (q : List Name) : FS × (Nat → Bool) → FS × (Nat → Bool) → Prop
  | take (fs : FS) (held : Nat → Bool) (i : Nat) (f : Option Errno)
      (h : (Op.createDir f ⟨true, q⟩).result fs = Res.mkOk ()) :
      LockStep P q (fs, held) ((Op.createDir f ⟨true, q⟩).run fs, fun j => if j = i then true else held j)
  | busy (fs : FS) (held : Nat → Bool) (f : Option Errno)
      (h : (Op.createDir f ⟨true, q⟩).result fs ≠ Res.mkOk ()) :
      LockStep P q (fs, held) ((Op.createDir f ⟨true, q⟩).run fs, held)
  | give (fs : FS) (held : Nat → Bool) (i : Nat) (f : Option Errno) (hi : held i = true)
      (h : (Op.removeDir f ⟨true, q⟩).result fs = Res.mkOk ()) :
      LockStep P q (fs, held) ((Op.removeDir f ⟨true, q⟩).run fs, fun j => if j = i then false else held j)
  | stuck (fs : FS) (held : Nat → Bool) (i : Nat) (f : Option Errno) (hi : held i = true)
      (h : (Op.removeDir f ⟨true, q⟩).result fs ≠ Res.mkOk ()) :
      LockStep P q (fs, held) ((Op.removeDir f ⟨true, q⟩).run fs, held)
  | other (fs : FS) (held : Nat → Bool) (op : Op) (h : P fs op) : LockStep P q (fs, held) (op.run fs, held)

inductive LockRun (P : FS → Op → Prop) (q : List Name) (s : FS × (Nat → Bool)) : FS × (Nat → Bool) → Prop
  | refl : LockRun P q s s
  | step {s' s'' : FS × (Nat → Bool)} : LockRun P q s s' → LockStep P q s' s'' → LockRun P q s s''

/-- A call that takes the thing at `p`, inode `k`, away: Rename to some name that is not a name of it, or RemoveFile
or RemoveDir. -/
def Claims (fs : FS) (p : Path) (k : Nat) : Op → Prop
  | .rename _ a b => a = p ∧ resolve fs false b ≠ .found k
  | .removeFile _ a => a = p
  | .removeDir _ a => a = p
  | _ => False
end Spec

namespace Fs
theorem Op.run_dir {fs : FS} (op : Op) :
    (∀ k, IsDir fs k → IsDir (op.run fs) k) ∧ (op.run fs).limit = fs.limit := by
  have idle : (∀ k, IsDir fs k → IsDir fs k) ∧ fs.limit = fs.limit := ⟨fun _ h => h, rfl⟩
  have ext : ∀ {keep : Nat → Prop} {fs' : FS}, Ext keep fs fs' → (∀ k, IsDir fs k → IsDir fs' k) ∧ fs'.limit = fs.limit :=
    fun x => ⟨fun k ⟨u, e, h⟩ => by obtain ⟨e', h', -⟩ := x.dirs k u e h; exact ⟨u, e', h'⟩, x.limit⟩
  have rem : ∀ (f : Option Errno) (p : Path) (fs' : FS), remove f fs p = .ok fs' →
      (∀ k, IsDir fs k → IsDir fs' k) ∧ fs'.limit = fs.limit := by
    intro f p fs' h
    obtain ⟨-, d, up, es, n, i, hp, hl, -, rfl⟩ := remove_spec h
    exact ext (unentry_ext (parent_ok hp).1 hl)
  cases op with
  | createDir f p =>
    simp only [Op.run, Fs.createDir]
    match hm : mkdir f fs p with
    | .error e => exact idle
    | .ok fs' => exact ext (mkdir_spec hm).1
  | write cf wf p data =>
    simp only [Op.run]
    rcases write_spec cf wf fs p data with ⟨-, h⟩ | ⟨i, k, -, x, -⟩
    · rw [h]; exact idle
    · exact ext x
  | copy f a b =>
    simp only [Op.run, Fs.copy]
    match hm : link f fs a b with
    | .error e => exact idle
    | .ok fs' =>
      obtain ⟨-, i, d, up, es, n, -, hp, hl, -, rfl⟩ := link_spec hm
      refine ⟨fun k ⟨u, e, h⟩ => ?_, rfl⟩
      have g : (fs.set d (.dir up (es ++ [(n, i)]))).nodes[k]? = if k = d then some (.dir up (es ++ [(n, i)])) else fs.nodes[k]? :=
        get_set (parent_ok hp).1
      by_cases hk : k = d
      · exact ⟨up, _, by show (fs.set d _).nodes[k]? = _; rw [g, if_pos hk]⟩
      · exact ⟨u, e, by show (fs.set d _).nodes[k]? = _; rw [g, if_neg hk, h]⟩
  | removeFile f p =>
    simp only [Op.run, Fs.removeFile]
    match hm : remove f fs p with
    | .error e => exact idle
    | .ok fs' => exact rem f p fs' hm
  | removeDir f p =>
    simp only [Op.run, Fs.removeDir]
    match hm : remove f fs p with
    | .error e => exact idle
    | .ok fs' => exact rem f p fs' hm
  | rename f a b =>
    simp only [Op.run, Fs.rename]
    match hr : Os.rename f fs a b with
    | .error e => exact idle
    | .ok fs' =>
      obtain ⟨-, hsys⟩ := rename_sys hr
      obtain ⟨d, up, es, n, d', up', es', n', i, hpa, hpb, hl, hcase⟩ := sysRename_spec hsys
      rcases hcase with ⟨_, rfl⟩ | ⟨hne, rfl⟩
      · exact idle
      · have hm := moved (i := i) (n := n) (n' := n') (parent_ok hpa).1 (parent_ok hpb).1
        exact ⟨fun k hk => (hm.dirs k).2 hk, hm.limit⟩

/-- A path on which nothing is renamed or replaced. -/
theorem reach_moved {fs fs' : FS} {d d' i : Nat} {n n' : Name} (he : inode fs d n = some i)
    (hm : ∀ x m, inode fs' x m = if x = d' ∧ m = n' then some i else if x = d ∧ m = n then none else inode fs x m)
    (ht : ∀ j, inode fs d' n' = some j → ∀ m, inode fs j m = none) {s k : Nat} {q : List Name}
    (hq : reach fs s q = some k) (hi : ∀ r, r <+: q → r ≠ [] → reach fs s r ≠ some i)
    (hk : q ≠ [] → inode fs d' n' ≠ some k) : reach fs' s q = some k := by
  induction q generalizing s with
  | nil => exact hq
  | cons m q ih =>
    rw [reach] at hq ⊢
    cases hx : inode fs s m with
    | none => rw [hx] at hq; cases hq
    | some x =>
      rw [hx] at hq
      have h1 : ¬ (s = d' ∧ m = n') := by
        rintro ⟨rfl, rfl⟩
        cases q with
        | nil => cases hq; exact hk (by simp) hx
        | cons z q =>
          have hq : reach fs x (z :: q) = some k := hq
          rw [reach, ht x hx z] at hq; cases hq
      have h2 : ¬ (s = d ∧ m = n) := by
        rintro ⟨rfl, rfl⟩
        refine hi [m] ⟨q, rfl⟩ (by simp) ?_
        rw [reach, he]; rfl
      rw [hm, if_neg h1, if_neg h2, hx]
      refine ih hq (fun r hr hn => ?_) (fun _ => hk (by simp))
      have := hi (m :: r) (by obtain ⟨w, rfl⟩ := hr; exact ⟨w, rfl⟩) (by simp)
      rw [reach, hx] at this
      exact this

theorem spares_keep {fs : FS} (t : Tree fs) {op : Op} {q r : List Name} {k : Nat} (hs : Spares q fs op)
    (hr : r <+: q) (hk : reach fs 0 r = some k) : reach (op.run fs) 0 r = some k := by
  obtain ⟨-, st, -⟩ := op.run_tree t
  generalize op.run fs = fs' at *
  cases st with
  | same he => exact reach_mono (fun x m k h => by rw [he, h]) hk
  | add d n k0 h he =>
    refine reach_mono (fun x m k h' => ?_) hk
    rw [he, if_neg, h']
    rintro ⟨rfl, rfl⟩
    rw [h] at h'
    cases h'
  | drop d n i f p ho hr' h hi he =>
    refine reach_drop h hi he hk ?_
    rintro rfl
    rcases ho with rfl | rfl <;> exact (hs r k hr hk).1 hr'
  | move f a b d up es n d' up' es' n' i ho hsys ha hb hl hne hm =>
    obtain ⟨hd1, -⟩ := parent_ok ha
    obtain ⟨hd2, -⟩ := parent_ok hb
    have hra := resolve_nofollow ha
    rw [hl] at hra
    have hrb := resolve_nofollow hb
    refine reach_moved (by rw [entry_of hd1, hl]) hm.inode (fun j hj m => ?_) hk (fun r' hr' _ h => ?_) (fun _ h => ?_)
    · rw [entry_of hd2] at hj
      exact sysRename_target hsys ha hb hl hne hj m
    · exact (hs r' i (hr'.trans hr) h).2 f a b ho hra
    · rw [entry_of hd2] at h
      rw [h] at hrb
      refine (hs r k hr hk).1 ?_
      rw [ho]
      exact ⟨hrb, (hs r k hr hk).2 f a b ho⟩

theorem createDir_fail {f : Option Errno} {fs : FS} {p : Path} (h : (Op.createDir f p).result fs ≠ Res.mkOk ()) :
    (Op.createDir f p).run fs = fs := by
  simp only [Op.result, Fs.createDir] at h
  simp only [Op.run, Fs.createDir]
  match hm : mkdir f fs p with
  | .error e => rfl
  | .ok fs' => rw [hm] at h; exact absurd rfl h

theorem removeDir_fail {f : Option Errno} {fs : FS} {p : Path} (h : (Op.removeDir f p).result fs ≠ Res.mkOk ()) :
    (Op.removeDir f p).run fs = fs := by
  simp only [Op.result, Fs.removeDir] at h
  simp only [Op.run, Fs.removeDir]
  match hm : remove f fs p with
  | .error e => rfl
  | .ok fs' => rw [hm] at h; exact absurd rfl h

theorem removeFile_eq (f : Option Errno) (fs : FS) (p : Path) : (Op.removeFile f p).result fs = (Op.removeDir f p).result fs ∧
    (Op.removeFile f p).run fs = (Op.removeDir f p).run fs := ⟨rfl, rfl⟩

theorem rename_fail {f : Option Errno} {fs : FS} {a b : Path} (h : (Op.rename f a b).result fs ≠ Res.mkOk ()) :
    (Op.rename f a b).run fs = fs := by
  simp only [Op.result, Fs.rename] at h
  simp only [Op.run, Fs.rename]
  match hm : Os.rename f fs a b with
  | .error e => rfl
  | .ok fs' => rw [hm] at h; exact absurd rfl h

/-- CreateDir returns Ok only for a path that does not exist. -/
theorem createDir_won {f : Option Errno} {fs : FS} {pd : List Name} {n : Name} {d : Nat} (t : Tree fs)
    (hd : reach fs 0 pd = some d) (hD : IsDir fs d) (h : (Op.createDir f ⟨true, pd ++ [n]⟩).result fs = Res.mkOk ()) :
    inode fs d n = none ∧ (∃ k, inode ((Op.createDir f ⟨true, pd ++ [n]⟩).run fs) d n = some k) ∧
    reach ((Op.createDir f ⟨true, pd ++ [n]⟩).run fs) 0 pd = some d := by
  simp only [Op.result, Fs.createDir] at h
  simp only [Op.run, Fs.createDir]
  match hm : mkdir f fs ⟨true, pd ++ [n]⟩ with
  | .error e => rw [hm] at h; exact absurd h mkErr_ne_mkOk
  | .ok fs' =>
    simp only
    unfold mkdir at hm
    cases f with
    | some e => cases hm
    | none =>
      simp only at hm
      match hp : parent fs ⟨true, pd ++ [n]⟩ with
      | .error e => rw [hp] at hm; cases e <;> cases hm
      | .ok (d0, up, es, n0) =>
        rw [hp] at hm
        simp only at hm
        match hl : es.lookup n0 with
        | some j => rw [hl] at hm; cases hm
        | none =>
          rw [hl] at hm
          cases hm
          obtain ⟨rfl, rfl⟩ := parent_reach t hp hd hD
          obtain ⟨hd1, h1, h2, -⟩ := parent_ok hp
          obtain ⟨-, k2⟩ := add_tree (node := .dir d0 []) t hd1 hl ⟨h1, h2⟩ (Or.inr rfl)
          have hn : inode fs d0 n0 = none := by rw [entry_of hd1, hl]
          refine ⟨hn, ⟨fs.nodes.length, by rw [k2, if_pos ⟨rfl, rfl⟩]⟩, reach_mono (fun x m k h' => ?_) hd⟩
          rw [k2, if_neg, h']
          rintro ⟨rfl, rfl⟩
          rw [hn] at h'
          cases h'

theorem parent_of {fs : FS} {pd : List Name} {n : Name} {d : Nat} (t : Tree fs)
    (hd : reach fs 0 pd = some d) (hD : IsDir fs d) (hn : n ≠ dot ∧ n ≠ dotdot) (hl : pd.length ≤ fs.limit) :
    ∃ up es, parent fs ⟨true, pd ++ [n]⟩ = .ok (d, up, es, n) ∧ fs.nodes[d]? = some (.dir up es) := by
  obtain ⟨up, es, h⟩ := hD
  refine ⟨up, es, ?_, h⟩
  unfold parent
  simp only [List.getLast?_append, List.getLast?_singleton, Option.some_or, List.dropLast_concat, if_true]
  rw [if_neg (fun h => h.elim hn.1 hn.2), walk_reach t hd (fun _ => dir_nolink ⟨up, es, h⟩), if_pos hl]
  simp only [h]

/-- Without a failure, CreateDir returns Ok if the path does not exist. -/
theorem createDir_wins {fs : FS} {pd : List Name} {n : Name} {d : Nat} (t : Tree fs)
    (hd : reach fs 0 pd = some d) (hD : IsDir fs d) (hn : n ≠ dot ∧ n ≠ dotdot) (hl : pd.length ≤ fs.limit)
    (h : inode fs d n = none) : (Op.createDir none ⟨true, pd ++ [n]⟩).result fs = Res.mkOk () := by
  obtain ⟨up, es, hp, he⟩ := parent_of t hd hD hn hl
  rw [entry_of he] at h
  simp only [Op.result, Fs.createDir, mkdir]
  simp only [hp, h]

theorem removeDir_gone {f : Option Errno} {fs : FS} {pd : List Name} {n : Name} {d : Nat} (t : Tree fs)
    (hd : reach fs 0 pd = some d) (hD : IsDir fs d) (h : (Op.removeDir f ⟨true, pd ++ [n]⟩).result fs = Res.mkOk ()) :
    inode ((Op.removeDir f ⟨true, pd ++ [n]⟩).run fs) d n = none ∧
    reach ((Op.removeDir f ⟨true, pd ++ [n]⟩).run fs) 0 pd = some d := by
  simp only [Op.result, Fs.removeDir] at h
  simp only [Op.run, Fs.removeDir]
  match hm : remove f fs ⟨true, pd ++ [n]⟩ with
  | .error e => rw [hm] at h; exact absurd h mkErr_ne_mkOk
  | .ok fs' =>
    simp only
    obtain ⟨-, d0, up, es, n0, i, hp, hl, hi, rfl⟩ := remove_spec hm
    obtain ⟨rfl, rfl⟩ := parent_reach t hp hd hD
    obtain ⟨hd1, -⟩ := parent_ok hp
    have g : ∀ k : Nat, (unentry fs d0 up es n0).nodes[k]? =
        if k = d0 then some (.dir up (es.filter fun e => e.1 ≠ n0)) else fs.nodes[k]? := fun k => get_set hd1
    have e : ∀ x m, inode (unentry fs d0 up es n0) x m = if x = d0 ∧ m = n0 then none else inode fs x m := by
      intro x m
      by_cases hx : x = d0
      · subst hx
        rw [entry_of (by rw [g, if_pos rfl]), entry_of hd1, lookup_filter]
        by_cases hm : m = n0 <;> simp [hm]
      · unfold inode
        rw [g, if_neg hx, if_neg fun h => hx h.1]
    refine ⟨by rw [e, if_pos ⟨rfl, rfl⟩], ?_⟩
    have he : inode fs d0 n0 = some i := by rw [entry_of hd1, hl]
    have hno : ∀ m, inode fs i m = none := by
      intro m
      match hx : fs.nodes[i]? with
      | some (.dir u e) => cases hi u e hx; rw [entry_of hx]; rfl
      | some (.file c) => unfold inode; rw [hx]
      | some (.link c) => unfold inode; rw [hx]
      | none => unfold inode; rw [hx]
    refine reach_drop he hno e hd ?_
    rintro rfl
    rw [hno] at he
    cases he

/-- What holds of the lock and its directory. -/
structure LockInv (pd : List Name) (n : Name) (d l : Nat) (s : FS × (Nat → Bool)) : Prop where
  tree : Tree s.1
  up : reach s.1 0 pd = some d
  dir : IsDir s.1 d
  limit : s.1.limit = l
  there : ∀ i, s.2 i = true → ∃ k, inode s.1 d n = some k
  one : ∀ i j, s.2 i = true → s.2 j = true → i = j

theorem LockInv.step {P : FS → Op → Prop} {pd : List Name} {n : Name} {d l : Nat} {s s' : FS × (Nat → Bool)}
    (hP : ∀ fs op, P fs op → Spares (pd ++ [n]) fs op) (I : LockInv pd n d l s) (h : LockStep P (pd ++ [n]) s s') :
    LockInv pd n d l s' := by
  cases h with
  | take fs held i f h =>
    obtain ⟨h1, h2, h3⟩ := createDir_won I.tree I.up I.dir h
    have none : ∀ j, held j = false := by
      intro j
      cases hj : held j with
      | false => rfl
      | true =>
        obtain ⟨k, hk⟩ := I.there j hj
        have hk : inode fs d n = some k := hk
        rw [h1] at hk
        cases hk
    obtain ⟨r1, r2⟩ := (Op.createDir f ⟨true, pd ++ [n]⟩).run_dir (fs := fs)
    refine ⟨(Op.run_tree (fs := fs) I.tree (.createDir f ⟨true, pd ++ [n]⟩)).1, h3, r1 d I.dir, r2.trans I.limit, fun _ _ => h2, fun a b ha hb => ?_⟩
    have key : ∀ a, (if a = i then true else held a) = true → a = i := by
      intro a ha
      apply Classical.byContradiction
      intro hc
      rw [if_neg hc, none] at ha
      cases ha
    rw [key a ha, key b hb]
  | busy fs held f h => rw [createDir_fail h]; exact I
  | give fs held i f hi h =>
    obtain ⟨h1, h2⟩ := removeDir_gone I.tree I.up I.dir h
    obtain ⟨r1, r2⟩ := (Op.removeDir f ⟨true, pd ++ [n]⟩).run_dir (fs := fs)
    have key : ∀ a, (if a = i then false else held a) ≠ true := by
      intro a ha
      by_cases hc : a = i
      · rw [if_pos hc] at ha; cases ha
      · rw [if_neg hc] at ha; exact hc (I.one a i ha hi)
    exact ⟨(Op.run_tree (fs := fs) I.tree (.removeDir f ⟨true, pd ++ [n]⟩)).1, h2, r1 d I.dir, r2.trans I.limit, fun a ha => absurd ha (key a), fun a _ ha _ => absurd ha (key a)⟩
  | stuck fs held i f hi h => rw [removeDir_fail h]; exact I
  | other fs held op h =>
    have hs := hP fs op h
    obtain ⟨r1, r2⟩ := op.run_dir (fs := fs)
    have hup : reach (op.run fs) 0 pd = some d := spares_keep I.tree hs ⟨[n], rfl⟩ I.up
    refine ⟨(Op.run_tree (fs := fs) I.tree _).1, hup, r1 d I.dir, r2.trans I.limit, fun i hi => ?_, I.one⟩
    obtain ⟨k, hk⟩ := I.there i hi
    have := spares_keep I.tree hs (List.prefix_refl _) (reach_snoc.2 ⟨d, I.up, hk⟩)
    obtain ⟨x, hx, hk'⟩ := reach_snoc.1 this
    rw [hup] at hx
    cases hx
    exact ⟨k, hk'⟩

theorem LockInv.run {P : FS → Op → Prop} {pd : List Name} {n : Name} {d l : Nat} {s s' : FS × (Nat → Bool)}
    (hP : ∀ fs op, P fs op → Spares (pd ++ [n]) fs op) (I : LockInv pd n d l s) (h : LockRun P (pd ++ [n]) s s') :
    LockInv pd n d l s' := by
  induction h with
  | refl => exact I
  | step _ hs ih => exact ih.step hP hs
end Fs

/-- **C169**, the lock.  Processes use a path `/…/n` in an existing directory as a lock: whoever gets Ok from CreateDir
has it and gives it back with RemoveDir, and nobody else removes or renames the directory or one above it.  Whatever
else they do, in whatever order and however the calls fail, at most one process has the lock, and while one has it
CreateDir returns an error to every other. -/
theorem C169_lock (fs fs' : FS) (held : Nat → Bool) (pd : List Name) (n : Name) (d : Nat) (t : Tree fs)
    (hd : reach fs 0 pd = some d) (hD : IsDir fs d)
    (h : LockRun (Spares (pd ++ [n])) (pd ++ [n]) (fs, fun _ => false) (fs', held)) :
    (∀ i j, held i = true → held j = true → i = j) ∧
    (∀ i, held i = true → (∃ k, reach fs' 0 (pd ++ [n]) = some k) ∧
      ∀ f, (Op.createDir f ⟨true, pd ++ [n]⟩).result fs' ≠ Res.mkOk ()) := by
  have I : LockInv pd n d fs.limit (fs', held) := by
    refine LockInv.run (fun _ _ h => h) ⟨t, hd, hD, rfl, fun i h => ?_, fun i _ h => ?_⟩ h <;> cases h
  refine ⟨I.one, fun i hi => ?_⟩
  obtain ⟨k, hk⟩ := I.there i hi
  refine ⟨⟨k, reach_snoc.2 ⟨d, I.up, hk⟩⟩, fun f hf => ?_⟩
  have := (createDir_won I.tree I.up I.dir hf).1
  have hk : inode fs' d n = some k := hk
  rw [this] at hk
  cases hk

/-- **C169**, the lock is not lost.  If the path does not exist at the start and nobody makes it except to take the lock,
then at every moment it exists if and only if somebody has the lock, and a CreateDir that does not fail in itself
returns Ok if and only if nobody has it. -/
theorem C169_lock_free (fs fs' : FS) (held : Nat → Bool) (pd : List Name) (n : Name) (d : Nat) (t : Tree fs)
    (hd : reach fs 0 pd = some d) (hD : IsDir fs d) (hn : n ≠ dot ∧ n ≠ dotdot) (hl : pd.length ≤ fs.limit)
    (h0 : reach fs 0 (pd ++ [n]) = none)
    (h : LockRun (Avoids (pd ++ [n])) (pd ++ [n]) (fs, fun _ => false) (fs', held)) :
    ((∃ i, held i = true) ↔ ∃ k, reach fs' 0 (pd ++ [n]) = some k) ∧
    ((Op.createDir none ⟨true, pd ++ [n]⟩).result fs' = Res.mkOk () ↔ ∀ i, held i = false) := by
  have I0 : LockInv pd n d fs.limit (fs, fun _ => false) := by
    refine ⟨t, hd, hD, rfl, fun i h => ?_, fun i _ h => ?_⟩ <;> cases h
  have hP : ∀ fs op, Avoids (pd ++ [n]) fs op → Spares (pd ++ [n]) fs op := fun _ _ h => h.1
  have I := I0.run hP h
  have back : ∀ s : FS × (Nat → Bool), LockRun (Avoids (pd ++ [n])) (pd ++ [n]) (fs, fun _ => false) s →
      (∀ i, s.2 i = false) → reach s.1 0 (pd ++ [n]) = none := by
    intro s hs
    induction hs with
    | refl => exact fun _ => h0
    | step hr st ih =>
      have J := I0.run hP hr
      have J' := J.step hP st
      cases st with
      | take fs held i f h => intro hc; have := hc i; simp at this
      | busy fs held f h => rw [createDir_fail h]; exact ih
      | give fs held i f hi h =>
        intro _
        have := (removeDir_gone J.tree J.up J.dir h).1
        match hx : reach ((Op.removeDir f ⟨true, pd ++ [n]⟩).run fs) 0 (pd ++ [n]) with
        | none => rfl
        | some k =>
          obtain ⟨x, h1, h2⟩ := reach_snoc.1 hx
          have hup : reach ((Op.removeDir f ⟨true, pd ++ [n]⟩).run fs) 0 pd = some d := J'.up
          rw [hup] at h1
          cases h1
          rw [this] at h2
          cases h2
      | stuck fs held i f hi h => intro hc; have hc : held i = false := hc i; rw [hi] at hc; cases hc
      | other fs held op h => exact fun hc => h.2 (ih hc)
  have back := back _ h
  have free : ∀ i, held i = true → ¬ ∀ j, held j = false := fun i hi hc => by rw [hc i] at hi; cases hi
  have iff : (∃ i, held i = true) ↔ ∃ k, reach fs' 0 (pd ++ [n]) = some k := by
    constructor
    · rintro ⟨i, hi⟩
      obtain ⟨k, hk⟩ := I.there i hi
      exact ⟨k, reach_snoc.2 ⟨d, I.up, hk⟩⟩
    · rintro ⟨k, hk⟩
      apply Classical.byContradiction
      intro hc
      rw [back fun i => by cases hi : held i with
        | false => exact hi
        | true => exact absurd ⟨i, hi⟩ hc] at hk
      cases hk
  refine ⟨iff, fun hr i => ?_, fun hf => ?_⟩
  · cases hi : held i with
    | false => rfl
    | true =>
      obtain ⟨k, hk⟩ := I.there i hi
      have := (createDir_won I.tree I.up I.dir hr).1
      have hk : inode fs' d n = some k := hk
      rw [this] at hk
      cases hk
  · refine createDir_wins I.tree I.up I.dir hn (by rw [show fs'.limit = fs.limit from I.limit]; exact hl) ?_
    have := back hf
    match hx : inode fs' d n with
    | none => rfl
    | some k =>
      rw [reach_snoc.2 ⟨d, I.up, hx⟩] at this
      cases this

/-- **C169**, the election.  However many CreateDir calls are made for the same path in an existing directory, if the
other calls leave the path alone then at most one of them returns Ok. -/
theorem C169_one_winner (fs : FS) (ops : List Op) (pd : List Name) (n : Name) (d : Nat) (t : Tree fs)
    (hd : reach fs 0 pd = some d) (hD : IsDir fs d) (isMk : Op → Bool)
    (hmk : ∀ op, isMk op = true ↔ ∃ f, op = .createDir f ⟨true, pd ++ [n]⟩)
    (h : ∀ l op r, ops = l ++ op :: r → Spares (pd ++ [n]) (runAll fs l) op) :
    ((okCalls fs ops).filter isMk).length ≤ 1 ∧
    ((∃ k, reach fs 0 (pd ++ [n]) = some k) → (okCalls fs ops).filter isMk = []) := by
  induction ops generalizing fs with
  | nil => exact ⟨Nat.zero_le _, fun _ => rfl⟩
  | cons op ops ih =>
    have hs : Spares (pd ++ [n]) fs op := h [] op ops rfl
    have hup := spares_keep t hs ⟨[n], rfl⟩ hd
    obtain ⟨i1, i2⟩ := ih (op.run fs) (op.run_tree t).1 hup (op.run_dir.1 d hD)
      (fun l o r hl => h (op :: l) o r (by rw [hl]; rfl))
    have later : (∃ k, reach fs 0 (pd ++ [n]) = some k) → (okCalls (op.run fs) ops).filter isMk = [] :=
      fun ⟨k, hk⟩ => i2 ⟨k, spares_keep t hs (List.prefix_refl _) hk⟩
    have won : isMk op = true → op.result fs = Res.mkOk () →
        inode fs d n = none ∧ (okCalls (op.run fs) ops).filter isMk = [] := by
      intro hm hr
      obtain ⟨f, rfl⟩ := (hmk op).1 hm
      obtain ⟨w1, ⟨k, hk⟩, w3⟩ := createDir_won t hd hD hr
      exact ⟨w1, i2 ⟨k, reach_snoc.2 ⟨d, w3, hk⟩⟩⟩
    rw [okCalls, List.filter_append]
    by_cases hr : op.result fs = Res.mkOk ()
    · rw [if_pos hr]
      cases hm : isMk op with
      | true =>
        obtain ⟨w1, w2⟩ := won hm hr
        rw [w2]
        refine ⟨by simp [hm], ?_⟩
        rintro ⟨k, hk⟩
        obtain ⟨x, hx, hk⟩ := reach_snoc.1 hk
        rw [hd] at hx
        cases hx
        rw [w1] at hk
        cases hk
      | false =>
        rw [List.filter_cons_of_neg (by rw [hm]; simp), List.filter_nil, List.nil_append]
        exact ⟨i1, later⟩
    · rw [if_neg hr]
      exact ⟨i1, later⟩

namespace Fs
/-- A claim that is answered with Ok leaves nothing at the path; any other changes nothing. -/
theorem claim_ok {fs : FS} {op : Op} {pd : List Name} {n : Name} {k : Nat} (t : Tree fs)
    (hk : reach fs 0 (pd ++ [n]) = some k) (hc : Claims fs ⟨true, pd ++ [n]⟩ k op)
    (h : op.result fs = Res.mkOk ()) : ∃ d, reach (op.run fs) 0 pd = some d ∧ IsDir (op.run fs) d ∧
      inode (op.run fs) d n = none := by
  obtain ⟨d, hd, he⟩ := reach_snoc.1 hk
  have hD := entry_dir he
  refine ⟨d, ?_⟩
  have rem : ∀ f, (Op.removeDir f ⟨true, pd ++ [n]⟩).result fs = Res.mkOk () →
      reach ((Op.removeDir f ⟨true, pd ++ [n]⟩).run fs) 0 pd = some d ∧
      IsDir ((Op.removeDir f ⟨true, pd ++ [n]⟩).run fs) d ∧ inode ((Op.removeDir f ⟨true, pd ++ [n]⟩).run fs) d n = none := by
    intro f h
    obtain ⟨h1, h2⟩ := removeDir_gone t hd hD h
    exact ⟨h2, Op.run_dir _ |>.1 d hD, h1⟩
  cases op with
  | createDir f p => exact absurd hc id
  | write cf wf p data => exact absurd hc id
  | copy f a b => exact absurd hc id
  | removeFile f p =>
    have hc : p = _ := hc
    subst hc
    exact rem f h
  | removeDir f p =>
    have hc : p = _ := hc
    subst hc
    exact rem f h
  | rename f a b =>
    obtain ⟨rfl, hb⟩ := hc
    have hsys := (rename_sys (rename_ok h)).2
    refine and_left_comm.1 ⟨(Op.rename f ⟨true, pd ++ [n]⟩ b).run_dir.1 d hD, ?_⟩
    show reach (Fs.rename f fs ⟨true, pd ++ [n]⟩ b).2 0 pd = some d ∧ inode (Fs.rename f fs ⟨true, pd ++ [n]⟩ b).2 d n = none
    generalize (Fs.rename f fs ⟨true, pd ++ [n]⟩ b).2 = fs' at *
    obtain ⟨d0, up, es, n0, d', up', es', n', i, hpa, hpb, hla, hcase⟩ := sysRename_spec hsys
    obtain ⟨rfl, rfl⟩ := parent_reach t hpa hd hD
    obtain ⟨hd1, -⟩ := parent_ok hpa
    obtain ⟨hd2, -⟩ := parent_ok hpb
    have hik : i = k := by
      rw [entry_of hd1, hla] at he
      exact Option.some.inj he
    subst hik
    have hrb := resolve_nofollow hpb
    have hne : es'.lookup n' ≠ some i := fun hx => hb (by rw [hrb, hx])
    rcases hcase with ⟨hx, -⟩ | ⟨-, rfl⟩
    · exact absurd hx hne
    have hm := moved (i := i) (n := n0) (n' := n') hd1 hd2
    refine ⟨reach_moved he hm.inode (fun j hj m => ?_) hd (fun r hr _ hri => ?_) (fun _ hx => ?_), ?_⟩
    · rw [entry_of hd2] at hj
      exact sysRename_target hsys hpa hpb hla hne hj m
    · obtain ⟨w, rfl⟩ := hr
      have hI : IsDir fs i := by
        rw [reach_append, hri] at hd
        cases w with
        | nil => cases hd; exact hD
        | cons z w =>
          have hd : reach fs i (z :: w) = some d0 := hd
          rw [reach] at hd
          cases hz : inode fs i z with
          | none => rw [hz] at hd; cases hd
          | some y => exact entry_dir hz
      have := congrArg List.length (t.onePath hri hk hI)
      simp at this
    · rw [entry_of hd2] at hx
      rw [sysRename_target hsys hpa hpb hla hne hx n0] at he
      cases he
    · rw [hm.inode, if_neg, if_pos ⟨rfl, rfl⟩]
      rintro ⟨rfl, rfl⟩
      rw [entry_of hd2] at he
      exact hne he

theorem claim_fail {fs fs0 : FS} {op : Op} {p : Path} {k : Nat} (hc : Claims fs0 p k op) (h : op.result fs ≠ Res.mkOk ()) :
    op.run fs = fs := by
  cases op with
  | createDir f p => exact absurd hc id
  | write cf wf p data => exact absurd hc id
  | copy f a b => exact absurd hc id
  | removeFile f p => exact removeDir_fail h
  | removeDir f p => exact removeDir_fail h
  | rename f a b => exact rename_fail h

/-- There is nothing to claim. -/
theorem claim_late {fs fs0 : FS} {op : Op} {pd : List Name} {n : Name} {d k : Nat} (t : Tree fs) (hd : reach fs 0 pd = some d)
    (hD : IsDir fs d) (hn : inode fs d n = none) (hc : Claims fs0 ⟨true, pd ++ [n]⟩ k op) : op.result fs ≠ Res.mkOk () := by
  have rem : ∀ f, (Op.removeDir f ⟨true, pd ++ [n]⟩).result fs ≠ Res.mkOk () := by
    intro f h
    simp only [Op.result, Fs.removeDir] at h
    match hm : remove f fs ⟨true, pd ++ [n]⟩ with
    | .error e => rw [hm] at h; exact absurd h mkErr_ne_mkOk
    | .ok fs' =>
      obtain ⟨-, d0, up, es, n0, i, hp, hl, -⟩ := remove_spec hm
      obtain ⟨rfl, rfl⟩ := parent_reach t hp hd hD
      rw [entry_of (parent_ok hp).1, hl] at hn
      cases hn
  cases op with
  | createDir f p => exact absurd hc id
  | write cf wf p data => exact absurd hc id
  | copy f a b => exact absurd hc id
  | removeFile f p =>
    have hc : p = _ := hc
    subst hc
    exact rem f
  | removeDir f p =>
    have hc : p = _ := hc
    subst hc
    exact rem f
  | rename f a b =>
    obtain ⟨rfl, -⟩ := hc
    intro h
    obtain ⟨d0, up, es, n0, d', up', es', n', i, hp, -, hl, -⟩ := sysRename_spec (rename_sys (rename_ok h)).2
    obtain ⟨rfl, rfl⟩ := parent_reach t hp hd hD
    rw [entry_of (parent_ok hp).1, hl] at hn
    cases hn

theorem claims_late {fs fs0 : FS} {ops : List Op} {pd : List Name} {n : Name} {d k : Nat} (t : Tree fs)
    (hd : reach fs 0 pd = some d) (hD : IsDir fs d) (hn : inode fs d n = none)
    (hc : ∀ op, op ∈ ops → Claims fs0 ⟨true, pd ++ [n]⟩ k op) : okCalls fs ops = [] := by
  induction ops with
  | nil => rfl
  | cons op ops ih =>
    have h := claim_late t hd hD hn (hc op (by simp))
    rw [okCalls, if_neg h, claim_fail (hc op (by simp)) h]
    exact ih fun o ho => hc o (by simp [ho])
end Fs

/-- **C169**, claims.  Several processes try to take the same file or directory `/…/n` for themselves, each by renaming
it to a name of its own (which is not yet another name of it) or by removing it.  At most one of the calls returns Ok;
and if one of them could succeed at the start, exactly one does: it is the first that can. -/
theorem C169_claims (fs : FS) (ops : List Op) (pd : List Name) (n : Name) (k : Nat) (t : Tree fs)
    (hk : reach fs 0 (pd ++ [n]) = some k)
    (hc : ∀ op, op ∈ ops → Claims fs ⟨true, pd ++ [n]⟩ k op) :
    okCalls fs ops = (ops.find? fun op => op.result fs = Res.mkOk ()).toList := by
  induction ops with
  | nil => rfl
  | cons op ops ih =>
    by_cases h : op.result fs = Res.mkOk ()
    · obtain ⟨d, h1, h2, h3⟩ := claim_ok t hk (hc op (by simp)) h
      rw [okCalls, if_pos h, List.find?_cons_of_pos (by simpa using h),
        claims_late (op.run_tree t).1 h1 h2 h3 (fun o ho => hc o (by simp [ho]))]
      rfl
    · rw [okCalls, if_neg h, claim_fail (hc op (by simp)) h, List.find?_cons_of_neg (by simpa using h)]
      exact ih fun o ho => hc o (by simp [ho])

/-- **C169**, why the new name must not be a name of the same file already, as Copy makes it (C105): such a Rename
returns Ok and does nothing, so that any number of processes is told that the file is theirs. -/
theorem C169_linked (fs : FS) (pd pd' : List Name) (n n' : Name) (k : Nat) (m : Nat) (t : Tree fs)
    (hk : reach fs 0 (pd ++ [n]) = some k) (hk' : reach fs 0 (pd' ++ [n']) = some k) (hf : ¬ IsDir fs k)
    (hl : pd.length ≤ fs.limit) (hl' : pd'.length ≤ fs.limit) :
    (okCalls fs (List.replicate m (.rename none ⟨true, pd ++ [n]⟩ ⟨true, pd' ++ [n']⟩))).length = m ∧
    runAll fs (List.replicate m (.rename none ⟨true, pd ++ [n]⟩ ⟨true, pd' ++ [n']⟩)) = fs := by
  obtain ⟨d, hd, he⟩ := reach_snoc.1 hk
  obtain ⟨d', hd', he'⟩ := reach_snoc.1 hk'
  have dots : ∀ {x : Nat} {y : Name}, inode fs x y = some k → y ≠ dot ∧ y ≠ dotdot := by
    intro x y h
    refine ⟨?_, ?_⟩ <;> rintro rfl
    · rw [(t.dots x).1] at h; cases h
    · rw [(t.dots x).2] at h; cases h
  obtain ⟨up, es, hp, hn⟩ := parent_of t hd (entry_dir he) (dots he) hl
  obtain ⟨up', es', hp', hn'⟩ := parent_of t hd' (entry_dir he') (dots he') hl'
  rw [entry_of hn] at he
  rw [entry_of hn'] at he'
  have hs : sysRename fs ⟨true, pd ++ [n]⟩ ⟨true, pd' ++ [n']⟩ = .ok fs := by
    unfold sysRename
    simp only [hp, hp', he, he', if_true]
  have hr : Os.rename none fs ⟨true, pd ++ [n]⟩ ⟨true, pd' ++ [n']⟩ = .ok fs := by
    unfold Os.rename lstat
    rw [resolve_nofollow hp', he']
    simp only [hs]
    match hx : fs.nodes[k]? with
    | some (.dir u e) => exact absurd ⟨u, e, hx⟩ hf
    | some (.file c) => rfl
    | some (.link c) => rfl
    | none => rfl
  have h1 : (Op.rename none ⟨true, pd ++ [n]⟩ ⟨true, pd' ++ [n']⟩).result fs = Res.mkOk () := by
    simp only [Op.result, Fs.rename]; rw [hr]
  have h2 : (Op.rename none ⟨true, pd ++ [n]⟩ ⟨true, pd' ++ [n']⟩).run fs = fs := by
    simp only [Op.run, Fs.rename]; rw [hr]
  induction m with
  | zero => exact ⟨rfl, rfl⟩
  | succ m ih =>
    rw [List.replicate_succ, okCalls, if_pos h1, h2]
    refine ⟨by rw [List.length_append, ih.1, List.length_singleton, Nat.add_comm], ?_⟩
    show runAll ((Op.rename none ⟨true, pd ++ [n]⟩ ⟨true, pd' ++ [n']⟩).run fs) _ = fs
    rw [h2]
    exact ih.2

/-! ### Examples -/

namespace Fs
/-- `/L`. -/
def pL : Path := ⟨true, [] ++ [[76]]⟩

theorem spares_of {fs : FS} {op : Op} (h0 : ¬ op.Drops fs 0)
    (h1 : ∀ k, reach fs 0 [[76]] = some k → ¬ op.Drops fs k)
    (h : ∀ (f : Option Errno) (a b : Path), op ≠ .rename f a b) : Spares ([] ++ [[76]]) fs op := by
  intro r k hr hk
  refine ⟨?_, fun f a b e => absurd e (h f a b)⟩
  obtain ⟨w, hw⟩ := hr
  match r, hw, hk with
  | [], _, hk => cases hk; exact h0
  | [x], hw, hk => cases hw; exact h1 k hk
  | x :: y :: r, hw, _ => simp at hw
end Fs

/- Process 1 takes the lock, process 2 does not get it, somebody writes `/x`, process 1 fails to give the lock back
and then does, process 2 takes it.  (The file system at the end has `/x` and `/L`.) -/
example : ∃ fs' held, LockRun (Avoids ([] ++ [[76]])) ([] ++ [[76]]) (Fs.blank, fun _ => false) (fs', held) ∧ held 2 = true ∧
    (Op.createDir none pL).result fs' = Res.mkErr (some .EEXIST) := by
  refine ⟨_, _, .step (.step (.step (.step (.step (.step .refl
    (.take _ _ 1 none (by decide +kernel))) (.busy _ _ none (by decide +kernel)))
    (.other _ _ (.write none none ⟨true, [[120]]⟩ [7]) ⟨spares_of id (fun _ _ => id) (by rintro f a b ⟨⟩), ?_⟩))
    (.stuck _ _ 1 (some .EIO) rfl (by decide +kernel)))
    (.give _ _ 1 none rfl (by decide +kernel))) (.take _ _ 2 none (by decide +kernel)), rfl, by decide +kernel⟩
  intro h
  exact absurd h (by decide +kernel)
example : reach Fs.blank 0 [] = some 0 ∧ IsDir Fs.blank 0 ∧ ([76] : Name) ≠ dot ∧ ([76] : Name) ≠ dotdot ∧
    reach Fs.blank 0 ([] ++ [[76]]) = none := ⟨rfl, ⟨0, [], rfl⟩, by decide, by decide, by decide +kernel⟩

/- Three CreateDir calls, the first of which fails in itself, and a Write: the second wins. -/
example : okCalls Fs.blank [.createDir (some .EIO) pL, .createDir none pL, .write none none ⟨true, [[120]]⟩ [7], .createDir none pL] =
    [.createDir none pL, .write none none ⟨true, [[120]]⟩ [7]] := by rfl

/- Three processes claim `/d/x`: Rename to a directory that does not exist, Rename to `/e/m`, RemoveFile. -/
example : okCalls (runAll Fs.blank Fs.grown) [.rename none px ⟨true, [[122], [109]]⟩, .rename none px ⟨true, [[101], [109]]⟩,
    .removeFile none px] = [.rename none px ⟨true, [[101], [109]]⟩] := by rfl
example : ∀ op, op ∈ [Op.rename none px ⟨true, [[122], [109]]⟩, .rename none px ⟨true, [[101], [109]]⟩, .removeFile none px] →
    Claims (runAll Fs.blank Fs.grown) ⟨true, [[100]] ++ [[120]]⟩ 2 op := by
  intro op h
  simp only [List.mem_cons, List.not_mem_nil, or_false] at h
  rcases h with rfl | rfl | rfl
  · exact ⟨rfl, by decide +kernel⟩
  · exact ⟨rfl, by decide +kernel⟩
  · rfl
example : reach (runAll Fs.blank Fs.grown) 0 ([[100]] ++ [[120]]) = some 2 := by decide +kernel

/- `/e/y`, made by Copy from `/d/x`, is another name of it. -/
example : reach (runAll Fs.blank (Fs.grown ++ [.copy none px ⟨true, [[101], [121]]⟩])) 0 ([[100]] ++ [[120]]) = some 2 ∧
    reach (runAll Fs.blank (Fs.grown ++ [.copy none px ⟨true, [[101], [121]]⟩])) 0 ([[101]] ++ [[121]]) = some 2 := by
  decide +kernel
end Gost
