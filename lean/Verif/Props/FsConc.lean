import Verif.Model.FsConc
import Verif.Props.Fs
/-
Properties C142 (Write and Read at the same time) and C104 (a program that is killed during Write).
-/
namespace Gost.Fs
open Os

/-! ### One call alone -/

/-- What the schedule does is possible. -/
theorem schedule_interleave (order : List Nat) {s t : FS × List Running} (h : Interleave s t) :
    Interleave s (schedule order t) := by
  induction order generalizing t with
  | nil => exact h
  | cons k order ih =>
    obtain ⟨fs, rs⟩ := t
    show Interleave s (schedule order _)
    apply ih
    simp only
    cases hk : rs[k]? with
    | none => exact h
    | some r => exact h.step hk

theorem writeAt_eq {fs : FS} {i : Nat} {c : List UInt8} (hc : fs.nodes[i]? = some (.file c)) (off : Nat)
    (hoff : off ≤ c.length) (d : List UInt8) :
    writeAt fs i off d = fs.set i (.file (c.take off ++ d ++ c.drop (off + d.length))) := by
  unfold writeAt
  simp only [hc]
  rw [Nat.sub_eq_zero_of_le hoff]
  simp

theorem create_eq {fs : FS} {p : Path} {i : Nat} {c : List UInt8} (hp : resolve fs true p = .found i)
    (hc : fs.nodes[i]? = some (.file c)) : create none fs p = .ok (i, fs.set i (.file [])) := by
  unfold create; simp only [hp, hc]

theorem set_node {fs : FS} {i : Nat} {c : List UInt8} (hc : fs.nodes[i]? = some (.file c)) (n : Node) (k : Nat) :
    (fs.set i n).nodes[k]? = if k = i then some n else fs.nodes[k]? := get_set hc

theorem set_resolve {fs : FS} {i : Nat} {c d : List UInt8} (hc : fs.nodes[i]? = some (.file c)) {p : Path} {j : Nat}
    (h : resolve fs true p = .found j) : resolve (fs.set i (.file d)) true p = .found j :=
  resolve_ext (ext_file hc) (fun _ _ => trivial) trivial h

theorem take_maxRW {d : List UInt8} (h : d.length ≤ maxRW) : (d.drop 0).take maxRW = d := by
  rw [List.drop_zero, List.take_of_length_le h]

/-- The second system call of a Write of at most 1 GiB. -/
theorem next_writing {fs : FS} {i : Nat} {c d : List UInt8} (hc : fs.nodes[i]? = some (.file c)) (hd : d.length ≤ maxRW) :
    (Running.writing i 0 d).next fs = (.wrote (Res.mkOk ()), fs.set i (.file (d ++ c.drop d.length))) := by
  simp only [Running.next]
  rw [take_maxRW hd, writeAt_eq hc 0 (Nat.zero_le _)]
  rw [if_pos (by omega)]
  simp

theorem fileRead_eq {fs : FS} {i : Nat} {c : List UInt8} (hc : fs.nodes[i]? = some (.file c)) (n : Nat) :
    fileRead none fs i n = if n = 0 then .ok [] else if c.take (min n maxRW) = [] then .error .EOF
      else .ok (c.take (min n maxRW) ++ List.replicate (n - (c.take (min n maxRW)).length) 0) := by
  unfold fileRead
  simp only [hc]

end Gost.Fs
namespace Gost
open Os Fs

/-- C142: taken apart and put together again: with nobody else running, the system calls make up the functions of
Model/Fs.lean. -/
theorem C142_alone (fs : FS) (p : Path) (i : Nat) (old data : List UInt8) (h : HoldsAt fs i p old) (hd : data.length ≤ 2 ^ 30) :
    schedule [0, 0] (fs, [.write p data]) = ((write none none fs p data).2, [.wrote (write none none fs p data).1]) ∧
    schedule [0, 0, 0] (fs, [.read p]) = (fs, [.got (read none none fs p)]) := by
  have hm : maxRW = 2 ^ 30 := by decide
  constructor
  · have hc := create_eq h.1 h.2
    have h2 : (fs.set i (.file [])).nodes[i]? = some (.file []) := by rw [set_node h.2, if_pos rfl]
    have e1 : (Running.write p data).next fs = (.writing i 0 data, fs.set i (.file [])) := by
      simp only [Running.next, hc]
    have e2 := next_writing (d := data) h2 (by omega)
    show schedule [0] (_, [_]) = _
    simp only [schedule, List.foldl_cons, List.foldl_nil, List.getElem?_cons_zero, e1, e2, List.set_cons_zero]
    unfold write
    rw [hc]
    simp only [fileWrite, List.drop_nil, List.append_nil]
  · have e1 : (Running.read p).next fs = (.opened i, fs) := by
      simp only [Running.next, open_, h.1]
    simp only [schedule, List.foldl_cons, List.foldl_nil, List.getElem?_cons_zero, e1, List.set_cons_zero]
    unfold Fs.read
    simp only [open_, h.1, Running.next]
    cases fileRead none fs i (size fs i) <;> rfl

example : HoldsAt Fs.sample 1 pa [1, 2] := by decide

/-! ### Any number of calls at the same time -/

namespace Fs

/-- Specification: among the calls there is a Write of `d` to file `i`. -/
def Writer (fs : FS) (ps : List Running) (i : Nat) (d : List UInt8) : Prop :=
  ∃ p, Running.write p d ∈ ps ∧ resolve fs true p = .found i

/-- Specification: the calls, none of which has begun, are Writes and Reads of files that exist. -/
def Calls (fs : FS) (ps : List Running) : Prop :=
  ∀ r ∈ ps, (∃ p d i old, r = .write p d ∧ HoldsAt fs i p old) ∨ ∃ p i old, r = .read p ∧ HoldsAt fs i p old

/-- How far a call `q` of the beginning has got. -/
def Tracks (fs0 : FS) (q r : Running) : Prop :=
  match q with
  | .write p d => r = .write p d ∨
      (∃ j off, r = .writing j off d ∧ resolve fs0 true p = .found j ∧ (d.length ≤ maxRW → off = 0)) ∨
      r = .wrote (Res.mkOk ())
  | .read p => r = .read p ∨ (∃ j, r = .opened j ∧ resolve fs0 true p = .found j) ∨
      (∃ j n, r = .sized j n ∧ resolve fs0 true p = .found j) ∨ ∃ x, r = .got x
  | _ => False

/-- The contents of file `i` while the calls run. -/
inductive Contents (fs0 : FS) (ps rs : List Running) (i : Nat) (c : List UInt8) : Prop
  | old (h : fs0.nodes[i]? = some (.file c))
      (h' : ∀ (k : Nat) (p : Path) (d : List UInt8), ps[k]? = some (.write p d) → resolve fs0 true p = .found i → rs[k]? = some (.write p d))
  | empty (h : c = []) (h' : ∃ (k : Nat) (d : List UInt8), rs[k]? = some (.writing i 0 d))
  | new (h : Writer fs0 ps i c)

/-- What holds at every moment: paths lead where they led, the calls track those of the beginning, files are files; and `i`
has the contents described above. -/
structure Inv (fs0 : FS) (ps : List Running) (i : Nat) (fs : FS) (rs : List Running) : Prop where
  paths : ∀ p j, resolve fs0 true p = .found j → resolve fs true p = .found j
  files : ∀ (j : Nat) (d : List UInt8), fs0.nodes[j]? = some (.file d) → ∃ c : List UInt8, fs.nodes[j]? = some (.file c)
  len : rs.length = ps.length
  tracks : ∀ (k : Nat) (q r : Running), ps[k]? = some q → rs[k]? = some r → Tracks fs0 q r
  contents : ∀ c : List UInt8, fs.nodes[i]? = some (.file c) → Contents fs0 ps rs i c

theorem Inv.start {fs : FS} {ps : List Running} (hc : Calls fs ps) (i : Nat) : Inv fs ps i fs ps where
  paths _ _ h := h
  files j d h := ⟨d, h⟩
  len := rfl
  tracks k q r h h' := by
    rw [h] at h'; cases h'
    rcases hc q (List.mem_of_getElem? h) with ⟨p, d, _, _, rfl, _⟩ | ⟨p, _, _, rfl, _⟩
    · exact .inl rfl
    · exact .inl rfl
  contents c h := .old h (fun _ _ _ h _ => h)

/-- A change of one file: paths and files. -/
theorem Inv.set_files {fs0 fs : FS} {ps rs : List Running} {i : Nat} (h : Inv fs0 ps i fs rs) {j : Nat} {c d : List UInt8}
    (hj : fs.nodes[j]? = some (.file c)) :
    (∀ p k, resolve fs0 true p = .found k → resolve (fs.set j (.file d)) true p = .found k) ∧
    ∀ (k : Nat) (e : List UInt8), fs0.nodes[k]? = some (.file e) → ∃ c' : List UInt8, (fs.set j (.file d)).nodes[k]? = some (.file c') := by
  refine ⟨fun p k hp => set_resolve hj (h.paths p k hp), fun k e hk => ?_⟩
  rw [set_node hj]
  by_cases hkj : k = j
  · exact ⟨d, by rw [if_pos hkj]⟩
  · rw [if_neg hkj]; exact h.files k e hk

/-- A writer that has begun is one of the list. -/
theorem Inv.writer {fs0 fs : FS} {ps rs : List Running} {i : Nat} (h : Inv fs0 ps i fs rs) {k j off : Nat} {d : List UInt8}
    (hk : rs[k]? = some (.writing j off d)) : Writer fs0 ps j d ∧ (d.length ≤ maxRW → off = 0) := by
  have hlt : k < ps.length := by
    rw [← h.len]
    rw [List.getElem?_eq_some_iff] at hk; exact hk.1
  have ht := h.tracks k ps[k] _ (List.getElem?_eq_getElem hlt) hk
  cases hq : ps[k] <;> rw [hq] at ht <;> simp only [Tracks] at ht
  · rcases ht with ht | ⟨j', off', ht, hr, ho⟩ | ht
    · cases ht
    · cases ht
      exact ⟨⟨_, hq ▸ List.getElem_mem hlt, hr⟩, ho⟩
    · cases ht
  · rcases ht with ht | ⟨_, ht, _⟩ | ⟨_, _, ht, _⟩ | ⟨_, ht⟩ <;> cases ht

/-- One more system call. -/
theorem Inv.step {fs0 fs : FS} {ps rs : List Running} {i : Nat} (hc : Calls fs0 ps)
    (heq : ∀ d d', Writer fs0 ps i d → Writer fs0 ps i d' → d.length = d'.length)
    (hmax : ∀ d, Writer fs0 ps i d → d.length ≤ maxRW)
    (h : Inv fs0 ps i fs rs) {k : Nat} {r : Running} (hk : rs[k]? = some r) :
    Inv fs0 ps i (r.next fs).2 (rs.set k (r.next fs).1) := by
  have hlt : k < ps.length := by
    rw [← h.len]
    rw [List.getElem?_eq_some_iff] at hk; exact hk.1
  have hpk : ps[k]? = some ps[k] := List.getElem?_eq_getElem hlt
  have ht := h.tracks k ps[k] r hpk hk
  have hmem := List.getElem_mem hlt
  have get : ∀ (x : Running) (m : Nat), (rs.set k x)[m]? = if m = k then some x else rs[m]? := fun x m => get_set hk
  -- the calls
  have tr : ∀ x, Tracks fs0 ps[k] x → ∀ (m : Nat) (q y : Running), ps[m]? = some q → (rs.set k x)[m]? = some y →
      Tracks fs0 q y := by
    intro x hx m q y hq hy
    rw [get] at hy
    by_cases hm : m = k
    · rw [if_pos hm] at hy
      cases hy
      subst hm
      rw [hpk] at hq
      cases hq
      exact hx
    · rw [if_neg hm] at hy
      exact h.tracks m q y hq hy
  -- the contents do not change if a call goes on that neither begins nor finishes to write
  have keep : ∀ x, (∀ p d, r ≠ .write p d) → (∀ d, r ≠ .writing i 0 d) → ∀ c : List UInt8, Contents fs0 ps rs i c →
      Contents fs0 ps (rs.set k x) i c := by
    intro x h1 h2 c hcon
    rcases hcon with ⟨a, b⟩ | ⟨a, m, d, b⟩ | a
    · refine .old a fun m p d hm hp => ?_
      rw [get, if_neg]
      · exact b m p d hm hp
      · rintro rfl
        have := b m p d hm hp
        rw [hk] at this
        cases this
        exact h1 _ _ rfl
    · refine .empty a ⟨m, d, ?_⟩
      rw [get, if_neg]
      · exact b
      · rintro rfl
        rw [hk] at b
        cases b
        exact h2 _ rfl
    · exact .new a
  have same : ∀ x, (∀ p d, r ≠ .write p d) → (∀ d, r ≠ .writing i 0 d) → Tracks fs0 ps[k] x →
      Inv fs0 ps i fs (rs.set k x) := fun x h1 h2 h3 =>
    ⟨h.paths, h.files, by rw [List.length_set]; exact h.len, tr x h3, fun c hcc => keep x h1 h2 c (h.contents c hcc)⟩
  rcases hc _ hmem with ⟨p, d, j, old, hq, hold⟩ | ⟨p, j, old, hq, hold⟩
  · -- a Write
    rw [hq] at ht
    simp only [Tracks] at ht
    obtain ⟨c, hcj⟩ := h.files j old hold.2
    have hpj := h.paths p j hold.1
    rcases ht with rfl | ⟨j', off, rfl, hj', hoff⟩ | rfl
    · -- os.Create
      have e : (Running.write p d).next fs = (.writing j 0 d, fs.set j (.file [])) := by
        simp only [Running.next, create_eq hpj hcj]
      rw [e]
      simp only
      obtain ⟨a, b⟩ := h.set_files (d := []) hcj
      refine ⟨a, b, by rw [List.length_set]; exact h.len, tr _ ?_, fun c' hc' => ?_⟩
      · rw [hq]
        exact .inr (.inl ⟨j, 0, rfl, hold.1, fun _ => rfl⟩)
      · rw [set_node hcj] at hc'
        by_cases hij : i = j
        · rw [if_pos hij] at hc'
          cases hc'
          exact .empty rfl ⟨k, d, by rw [get, if_pos rfl, hij]⟩
        · rw [if_neg hij] at hc'
          rcases h.contents c' hc' with ⟨a', b'⟩ | ⟨a', m, d', b'⟩ | a'
          · refine .old a' fun m p' d' hm hp' => ?_
            rw [get, if_neg]
            · exact b' m p' d' hm hp'
            · rintro rfl
              have := b' m p' d' hm hp'
              rw [hk] at this
              cases this
              rw [hold.1] at hp'
              cases hp'
              exact hij rfl
          · refine .empty a' ⟨m, d', ?_⟩
            rw [get, if_neg]
            · exact b'
            · rintro rfl
              rw [hk] at b'
              cases b'
          · exact .new a'
    · -- File.Write
      rw [hold.1] at hj'
      cases hj'
      have hw : Writer fs0 ps j d := ⟨p, hq ▸ hmem, hold.1⟩
      by_cases hij : i = j
      · subst hij
        have hd := hmax d hw
        have := hoff hd
        subst this
        rw [next_writing hcj hd]
        simp only
        obtain ⟨a, b⟩ := h.set_files (d := d ++ c.drop d.length) hcj
        refine ⟨a, b, by rw [List.length_set]; exact h.len, tr _ ?_, fun c' hc' => ?_⟩
        · rw [hq]; exact .inr (.inr rfl)
        · rw [set_node hcj, if_pos rfl] at hc'
          have hcl : c.length ≤ d.length := by
            rcases h.contents c hcj with ⟨_, b'⟩ | ⟨a', _⟩ | a'
            · have := b' k p d (by rw [hpk, hq]) hold.1
              rw [hk] at this
              cases this
            · rw [a']; exact Nat.zero_le _
            · exact Nat.le_of_eq (heq c d a' hw)
          rw [List.drop_eq_nil_of_le hcl, List.append_nil] at hc'
          cases hc'
          exact .new hw
      · -- another file
        have hne : ∀ d', Running.writing j off d ≠ .writing i 0 d' := by
          intro d' he; cases he; exact hij rfl
        have key : ∃ x c', (Running.writing j off d).next fs = (x, fs.set j (.file c')) ∧ Tracks fs0 ps[k] x := by
          simp only [Running.next]
          have hwr : ∃ c', writeAt fs j off ((d.drop off).take maxRW) = fs.set j (.file c') := by
            unfold writeAt
            simp only [hcj]
            exact ⟨_, rfl⟩
          obtain ⟨c', hwr⟩ := hwr
          rw [hwr]
          by_cases hl : d.length ≤ off + ((d.drop off).take maxRW).length
          · rw [if_pos hl]
            exact ⟨_, c', rfl, by rw [hq]; exact .inr (.inr rfl)⟩
          · rw [if_neg hl]
            refine ⟨_, c', rfl, ?_⟩
            rw [hq]
            refine .inr (.inl ⟨j, _, rfl, hold.1, fun hd => ?_⟩)
            have := hoff hd
            subst this
            rw [take_maxRW hd] at hl
            omega
        obtain ⟨x, c', e, hx⟩ := key
        rw [e]
        simp only
        obtain ⟨a, b⟩ := h.set_files (d := c') hcj
        refine ⟨a, b, by rw [List.length_set]; exact h.len, tr _ hx, fun c'' hc'' => ?_⟩
        rw [set_node hcj, if_neg hij] at hc''
        exact keep x (by intro _ _ he; cases he) hne c'' (h.contents c'' hc'')
    · exact same _ (by intro _ _ he; cases he) (by intro _ he; cases he) (by rw [hq]; exact .inr (.inr rfl))
  · -- a Read
    rw [hq] at ht
    simp only [Tracks] at ht
    have hpj := h.paths p j hold.1
    rcases ht with rfl | ⟨j', rfl, hj'⟩ | ⟨j', n, rfl, hj'⟩ | ⟨x, rfl⟩
    · have e : (Running.read p).next fs = (.opened j, fs) := by simp only [Running.next, open_, hpj]
      rw [e]
      exact same _ (by intro _ _ he; cases he) (by intro _ he; cases he)
        (by rw [hq]; exact .inr (.inl ⟨j, rfl, hold.1⟩))
    · exact same _ (by intro _ _ he; cases he) (by intro _ he; cases he)
        (by rw [hq]; exact .inr (.inr (.inl ⟨j', _, rfl, hj'⟩)))
    · have e : ∃ x, (Running.sized j' n).next fs = (.got x, fs) := by
        simp only [Running.next]
        cases fileRead none fs j' n with
        | error e => exact ⟨_, rfl⟩
        | ok d => exact ⟨_, rfl⟩
      obtain ⟨x, e⟩ := e
      rw [e]
      exact same _ (by intro _ _ he; cases he) (by intro _ he; cases he)
        (by rw [hq]; exact .inr (.inr (.inr ⟨x, rfl⟩)))
    · exact same _ (by intro _ _ he; cases he) (by intro _ he; cases he)
        (by rw [hq]; exact .inr (.inr (.inr ⟨x, rfl⟩)))

theorem Inv.reach {fs0 : FS} {ps : List Running} {i : Nat} (hc : Calls fs0 ps)
    (heq : ∀ d d', Writer fs0 ps i d → Writer fs0 ps i d' → d.length = d'.length)
    (hmax : ∀ d, Writer fs0 ps i d → d.length ≤ maxRW) {s t : FS × List Running} (hs : s = (fs0, ps))
    (h : Interleave s t) : Inv fs0 ps i t.1 t.2 := by
  induction h with
  | refl => subst hs; exact Inv.start hc i
  | step _ hk ih => exact Inv.step hc heq hmax ih hk

/-- A call does not return to its beginning. -/
theorem Running.next_ne_write (r : Running) (fs : FS) (p : Path) (d : List UInt8) (hr : ∀ x, r ≠ .wrote x) :
    (r.next fs).1 ≠ .write p d := by
  intro he
  cases r with
  | write p' d' =>
    simp only [Running.next] at he
    cases hcr : create none fs p' with
    | error e => rw [hcr] at he; cases he
    | ok y => rw [hcr] at he; cases he
  | writing f o d' =>
    simp only [Running.next] at he
    split at he <;> cases he
  | wrote y => exact hr y rfl
  | read p' =>
    simp only [Running.next] at he
    cases hcr : open_ none fs p' with
    | error e => rw [hcr] at he; cases he
    | ok y => rw [hcr] at he; cases he
  | opened f => cases he
  | sized f n =>
    simp only [Running.next] at he
    cases hcr : fileRead none fs f n with
    | error e => rw [hcr] at he; cases he
    | ok y => rw [hcr] at he; cases he
  | got y => cases he

/-- As long as no Write to `i` has begun, `i` holds what it held. -/
theorem Inv.unbegun {fs0 : FS} {ps : List Running} {i : Nat} (hc : Calls fs0 ps)
    (heq : ∀ d d', Writer fs0 ps i d → Writer fs0 ps i d' → d.length = d'.length)
    (hmax : ∀ d, Writer fs0 ps i d → d.length ≤ maxRW) {s t : FS × List Running} (hs : s = (fs0, ps))
    (h : Interleave s t) (hb : ∀ (m : Nat) (p : Path) (d : List UInt8), ps[m]? = some (.write p d) →
      resolve fs0 true p = .found i → t.2[m]? = some (.write p d)) {old c : List UInt8}
    (hi : fs0.nodes[i]? = some (.file old)) (hcc : t.1.nodes[i]? = some (.file c)) : c = old := by
  suffices hsame : t.1.nodes[i]? = fs0.nodes[i]? by
    rw [hsame, hi] at hcc; cases hcc; rfl
  clear hcc
  induction h with
  | refl => subst hs; rfl
  | step ht hq ih =>
    rename_i fs1 rs1 q r0
    have inv : Inv fs0 ps i fs1 rs1 := Inv.reach hc heq hmax hs ht
    simp only at hb ih ⊢
    have hgs := fun m => get_set (i := m) (b := (r0.next fs1).1) hq
    have hlt : q < ps.length := by
      rw [← inv.len]
      rw [List.getElem?_eq_some_iff] at hq; exact hq.1
    have hpq : ps[q]? = some ps[q] := List.getElem?_eq_getElem hlt
    have htr := inv.tracks q _ _ hpq hq
    -- the call that goes on is not a Write to `i`
    have other : ∀ p d, ps[q] = .write p d → resolve fs0 true p ≠ .found i := by
      intro p d he hp
      have h1 := hb q p d (by rw [hpq, he]) hp
      rw [hgs, if_pos rfl] at h1
      cases r0 with
      | wrote x => rw [he] at htr; simp only [Option.some.injEq, Running.next] at h1; cases h1
      | _ => exact Running.next_ne_write _ _ _ _ (by intro _ h; cases h) (Option.some.inj h1)
    have before : fs1.nodes[i]? = fs0.nodes[i]? := by
      refine ih fun m p d hm hp => ?_
      have h1 := hb m p d hm hp
      rw [hgs] at h1
      by_cases hmq : m = q
      · subst hmq
        rw [hpq] at hm
        exact absurd hp (other p d (Option.some.inj hm))
      · rw [if_neg hmq] at h1; exact h1
    rw [← before]
    rcases hc _ (List.getElem_mem hlt) with ⟨p, d, j, old', he, hold⟩ | ⟨p, j, old', he, hold⟩
    · obtain ⟨c', hcj⟩ := inv.files j old' hold.2
      have hij : ¬ i = j := by
        rintro rfl
        exact other p d he hold.1
      rw [he] at htr
      simp only [Tracks] at htr
      rcases htr with rfl | ⟨j', off, rfl, hj', _⟩ | rfl
      · have e : (Running.write p d).next fs1 = (.writing j 0 d, fs1.set j (.file [])) := by
          simp only [Running.next, create_eq (inv.paths p j hold.1) hcj]
        rw [e]
        simp only
        rw [set_node hcj, if_neg hij]
      · rw [hold.1] at hj'
        cases hj'
        have hwr : (writeAt fs1 j off ((d.drop off).take maxRW)).nodes[i]? = fs1.nodes[i]? := by
          unfold writeAt
          simp only [hcj]
          rw [set_node hcj, if_neg hij]
        simp only [Running.next]
        split <;> exact hwr
      · rfl
    · rw [he] at htr
      simp only [Tracks] at htr
      rcases htr with rfl | ⟨j', rfl, hj'⟩ | ⟨j', n, rfl, hj'⟩ | ⟨x, rfl⟩
      · have e : (Running.read p).next fs1 = (.opened j, fs1) := by
          simp only [Running.next, open_, inv.paths p j hold.1]
        rw [e]
      · rfl
      · simp only [Running.next]
        cases fileRead none fs1 j' n <;> rfl
      · rfl

/-- A call that is over. -/
def Running.finished : Running → Bool
  | .wrote _ => true
  | .got _ => true
  | _ => false

end Fs

/-- C142, full property: Writes and Reads that run at the same time act as if they ran one after another.  Proved, for files that exist,
any number of calls and any interleaving of their system calls: a file whose Writes, if any, are of equal length and at most 1 GiB
(so in particular a file with one Write) holds at every moment its old contents, nothing, or the data of one of the Writes; when
all calls are over each Write has reported success, and the file holds its old contents if nobody wrote to it, otherwise the
data of one of the Writes.  Missing: Writes of different lengths, see `C142_writes_fails`, and the moment in which there is
nothing, see `C142_read_fails`. -/
theorem C142_writes_partial (fs fs' : FS) (ps rs : List Running) (hc : Calls fs ps)
    (h : Interleave (fs, ps) (fs', rs)) (i : Nat) (old : List UInt8) (hi : fs.nodes[i]? = some (.file old))
    (heq : ∀ d d', Writer fs ps i d → Writer fs ps i d' → d.length = d'.length)
    (hmax : ∀ d, Writer fs ps i d → d.length ≤ 2 ^ 30) :
    (∀ p, resolve fs true p = .found i → resolve fs' true p = .found i) ∧
    ∃ c : List UInt8, fs'.nodes[i]? = some (.file c) ∧ (c = old ∨ (c = [] ∧ ∃ d, Writer fs ps i d) ∨ Writer fs ps i c) ∧
      (rs.all Running.finished = true →
        (∀ (k : Nat) (p : Path) (d : List UInt8), ps[k]? = some (.write p d) → rs[k]? = some (.wrote (Res.mkOk ()))) ∧
        ((∃ d, Writer fs ps i d) → Writer fs ps i c) ∧ ((¬ ∃ d, Writer fs ps i d) → c = old)) := by
  have hm : maxRW = 2 ^ 30 := by decide
  have inv := Inv.reach hc heq (fun d hd => by rw [hm]; exact hmax d hd) rfl h
  simp only at inv
  obtain ⟨c, hcc⟩ := inv.files i old hi
  have hcon := inv.contents c hcc
  have ends : rs.all Running.finished = true → ∀ (k : Nat) (p : Path) (d : List UInt8), ps[k]? = some (.write p d) →
      rs[k]? = some (.wrote (Res.mkOk ())) := by
    intro hfin k p d hk
    have hlt : k < rs.length := by
      rw [inv.len]; rw [List.getElem?_eq_some_iff] at hk; exact hk.1
    have hk' := List.getElem?_eq_getElem hlt
    have ht := inv.tracks k _ _ hk hk'
    have hf := List.all_eq_true.1 hfin _ (List.getElem_mem hlt)
    simp only [Tracks] at ht
    rcases ht with ht | ⟨_, _, ht, _⟩ | ht
    · rw [ht] at hf; simp [Running.finished] at hf
    · rw [ht] at hf; simp [Running.finished] at hf
    · rw [hk', ht]
  refine ⟨fun p hp => inv.paths p i hp, c, hcc, ?_, fun hfin => ⟨ends hfin, ?_⟩⟩
  · rcases hcon with ⟨a, _⟩ | ⟨a, k, d, b⟩ | a
    · rw [hi] at a; cases a; exact .inl rfl
    · exact .inr (.inl ⟨a, d, (inv.writer b).1⟩)
    · exact .inr (.inr a)
  · rcases hcon with ⟨a, b⟩ | ⟨_, k, d, b⟩ | a
    · rw [hi] at a
      cases a
      refine ⟨?_, fun _ => rfl⟩
      rintro ⟨d, p, hmem, hp⟩
      obtain ⟨k, hk⟩ := List.mem_iff_getElem?.1 hmem
      have h1 := b k p d hk hp
      rw [ends hfin k p d hk] at h1
      cases h1
    · have hf := List.all_eq_true.1 hfin _ (List.mem_of_getElem? b)
      simp [Running.finished] at hf
    · exact ⟨fun _ => a, fun hno => absurd ⟨c, a⟩ hno⟩

/-- What a Read gives that learnt the size of `old` and then found `d`. -/
def Spec.refit (old d : List UInt8) : List UInt8 := d.take old.length ++ List.replicate (old.length - d.length) 0

/-- C142, full property: Writes and Reads that run at the same time act as if they ran one after another.  Proved, for files that exist,
any number of calls and any interleaving of their system calls: a Read of a file whose Writes, if any, are of equal length
and at most 1 GiB, as its old contents are, gives the old contents or the data of a Write; or, if there are Writes, nothing, the
error io.EOF, or the data of a Write cut or filled to the length of the old contents.  (So if the lengths are the same it is
never a mixture, and if nobody writes to the file it gives its contents.)  Missing: that the last three do not happen, see
`C142_read_fails`, and Writes of different lengths. -/
theorem C142_reads_partial (fs fs' : FS) (ps rs : List Running) (hc : Calls fs ps)
    (h : Interleave (fs, ps) (fs', rs)) (i : Nat) (old : List UInt8) (hi : fs.nodes[i]? = some (.file old))
    (heq : ∀ d d', Writer fs ps i d → Writer fs ps i d' → d.length = d'.length)
    (hmax : ∀ d, Writer fs ps i d → d.length ≤ 2 ^ 30) (hold : old.length ≤ 2 ^ 30)
    (k : Nat) (p : Path) (hk : ps[k]? = some (.read p)) (hp : resolve fs true p = .found i)
    (x : Res Errno (List UInt8)) (hx : rs[k]? = some (.got x)) :
    x = Res.mkOk old ∨ ∃ d, Writer fs ps i d ∧
      (x = Res.mkOk d ∨ x = Res.mkOk [] ∨ x = Res.mkErr (some .EOF) ∨ x = Res.mkOk (Spec.refit old d)) := by
  have hm : maxRW = 2 ^ 30 := by decide
  have main : ∀ {s t : FS × List Running}, s = (fs, ps) → Interleave s t → ∀ r, t.2[k]? = some r →
      match r with
      | .sized j n => j = i ∧ (n = old.length ∨ ((n = 0 ∨ ∃ d, Writer fs ps i d ∧ n = d.length) ∧
          ∃ (m : Nat) (p : Path) (d : List UInt8), ps[m]? = some (.write p d) ∧ resolve fs true p = .found i ∧
            t.2[m]? ≠ some (.write p d)))
      | .got x => x = Res.mkOk old ∨ ∃ d, Writer fs ps i d ∧
          (x = Res.mkOk d ∨ x = Res.mkOk [] ∨ x = Res.mkErr (some .EOF) ∨ x = Res.mkOk (Spec.refit old d))
      | _ => True := by
    intro s t hs ht
    induction ht with
    | refl =>
      subst hs
      intro r hr
      rw [hk] at hr
      cases hr
      trivial
    | step ht hq ih =>
      rename_i fs1 rs1 q r0
      have inv : Inv fs ps i fs1 rs1 := Inv.reach hc heq (fun d hd => by rw [hm]; exact hmax d hd) hs ht
      obtain ⟨c, hcc⟩ := inv.files i old hi
      have hcon := inv.contents c hcc
      have hgs := fun m => get_set (i := m) (b := (r0.next fs1).1) hq
      -- a Write that has begun remains so
      have mono : ∀ (m : Nat) (p : Path) (d : List UInt8), rs1[m]? ≠ some (.write p d) →
          (rs1.set q (r0.next fs1).1)[m]? ≠ some (.write p d) := by
        intro m p d hne
        rw [hgs]
        by_cases hmq : m = q
        · rw [if_pos hmq]
          intro he
          simp only [Option.some.injEq] at he
          cases r0 with
          | wrote x => cases he
          | _ => exact Running.next_ne_write _ _ _ _ (by intro _ h; cases h) he
        · rw [if_neg hmq]; exact hne
      intro r hr
      simp only at hr
      rw [hgs] at hr
      by_cases hkq : k = q
      · subst hkq
        rw [if_pos rfl] at hr
        cases hr
        have htr := inv.tracks k _ _ hk hq
        have hih := ih r0 hq
        simp only [Tracks] at htr
        rcases htr with rfl | ⟨j, rfl, hj⟩ | ⟨j, n, rfl, hj⟩ | ⟨x, rfl⟩
        · have e : (Running.read p).next fs1 = (.opened i, fs1) := by
            simp only [Running.next, open_, inv.paths p i hp]
          rw [e]
          trivial
        · rw [hp] at hj
          cases hj
          have e : (Running.opened i).next fs1 = (.sized i c.length, fs1) := by
            simp only [Running.next, size, hcc]
          rw [e] at mono ⊢
          refine ⟨rfl, ?_⟩
          rcases hcon with ⟨a, _⟩ | ⟨a, m, d, b⟩ | a
          · rw [hi] at a; cases a; exact .inl rfl
          · obtain ⟨⟨p', hmem, hp'⟩, _⟩ := inv.writer b
            -- the pending Write is call `m`
            have hlt : m < ps.length := by
              rw [← inv.len]
              rw [List.getElem?_eq_some_iff] at b; exact b.1
            have hpm : ps[m]? = some ps[m] := List.getElem?_eq_getElem hlt
            have htm := inv.tracks m _ _ hpm b
            cases hqm : ps[m] <;> rw [hqm] at htm <;> simp only [Tracks] at htm
            · rename_i p'' d''
              rcases htm with htm | ⟨j', off', htm, hr', _⟩ | htm
              · cases htm
              · cases htm
                refine .inr ⟨.inl (by rw [a]; rfl), m, p'', d, by rw [hpm, hqm], hr', mono m p'' d ?_⟩
                rw [b]; intro hcon; cases hcon
              · cases htm
            · rcases htm with htm | ⟨_, htm, _⟩ | ⟨_, _, htm, _⟩ | ⟨_, htm⟩ <;> cases htm
          · by_cases hex : ∃ (m : Nat) (p : Path) (d : List UInt8), ps[m]? = some (.write p d) ∧
                resolve fs true p = .found i ∧ rs1[m]? ≠ some (.write p d)
            · obtain ⟨m, p', d', h1, h2, h3⟩ := hex
              exact .inr ⟨.inr ⟨c, a, rfl⟩, m, p', d', h1, h2, mono m p' d' h3⟩
            · exact .inl (Inv.unbegun hc heq (fun d hd => by rw [hm]; exact hmax d hd) hs ht
                (fun m p' d' h1 h2 => Classical.byContradiction fun h3 => hex ⟨m, p', d', h1, h2, h3⟩) hi hcc ▸ rfl)
        · rw [hp] at hj
          cases hj
          simp only at hih
          simp only [Running.next]
          rw [fileRead_eq hcc]
          by_cases hn : n = 0
          · rw [if_pos hn]
            rcases hih.2 with hl | ⟨_, m, p', d', h1, h2, _⟩
            · exact .inl (by rw [List.eq_nil_of_length_eq_zero (l := old) (by omega)])
            · exact .inr ⟨d', ⟨p', List.mem_of_getElem? h1, h2⟩, .inr (.inl rfl)⟩
          · rw [if_neg hn]
            have take : ∀ d : List UInt8, d ≠ [] → min n maxRW = n → d.take (min n maxRW) ≠ [] := by
              intro d hd he h0
              rw [he] at h0
              have := congrArg List.length h0
              rw [List.length_take, List.length_nil] at this
              exact hd (List.eq_nil_of_length_eq_zero (by omega))
            by_cases hce : c = []
            · rw [if_pos (by rw [hce]; exact List.take_nil)]
              rcases hcon with ⟨a, h3⟩ | ⟨_, m, d, b⟩ | a
              · exfalso
                rw [hi] at a
                cases a
                rcases hih.2 with hl | ⟨_, m, p', d', h1, h2, h4⟩
                · rw [hce] at hl; exact hn hl
                · exact h4 (h3 m p' d' h1 h2)
              · exact .inr ⟨d, (inv.writer b).1, .inr (.inr (.inl rfl))⟩
              · exact .inr ⟨c, a, .inr (.inr (.inl rfl))⟩
            · have hnm : min n maxRW = n := by
                rw [hm]
                rcases hih.2 with hl | ⟨hl | ⟨d, hd, hl⟩, _⟩
                · omega
                · omega
                · have := hmax d hd; omega
              rw [if_neg (take c hce hnm), hnm, List.length_take]
              rcases hcon with ⟨a, h3⟩ | ⟨a, _⟩ | a
              · rw [hi] at a
                cases a
                rcases hih.2 with rfl | ⟨_, m, p', d', h1, h2, h4⟩
                · refine .inl ?_
                  rw [Nat.min_self, Nat.sub_self, List.take_length, List.replicate_zero, List.append_nil]
                · exact absurd (h3 m p' d' h1 h2) h4
              · exact absurd a hce
              · refine .inr ⟨c, a, ?_⟩
                rcases hih.2 with rfl | ⟨hl | ⟨d, hd, hl⟩, _⟩
                · refine .inr (.inr (.inr ?_))
                  unfold Spec.refit
                  rw [show old.length - min old.length c.length = old.length - c.length by omega]
                · exact absurd hl hn
                · refine .inl ?_
                  have := heq c d a hd
                  rw [show n = c.length by omega, Nat.min_self, Nat.sub_self, List.take_length, List.replicate_zero,
                    List.append_nil]
        · exact hih
      · rw [if_neg hkq] at hr
        have hih := ih r hr
        cases r with
        | sized j n =>
          refine ⟨hih.1, ?_⟩
          rcases hih.2 with hl | ⟨hl, m, p', d', h1, h2, h3⟩
          · exact .inl hl
          · exact .inr ⟨hl, m, p', d', h1, h2, mono m p' d' h3⟩
        | _ => exact hih
  exact main rfl h _ hx

/-- Two Writes and two Reads of `/a`, and a Write of another file. -/
example : Calls Fs.sample [.write pa [5, 6], .read pa, .write ps [7, 8], .read pa, .write px [1, 2, 3, 4]] := by
  intro r hr
  simp only [List.mem_cons, List.not_mem_nil, or_false] at hr
  rcases hr with rfl | rfl | rfl | rfl | rfl
  · exact .inl ⟨_, _, 1, [1, 2], rfl, by decide⟩
  · exact .inr ⟨_, 1, [1, 2], rfl, by decide⟩
  · exact .inl ⟨_, _, 1, [1, 2], rfl, by decide⟩
  · exact .inr ⟨_, 1, [1, 2], rfl, by decide⟩
  · exact .inl ⟨_, _, 3, [7], rfl, by decide⟩

/-- C142 is violated: of two Writes of data of different lengths to the same file, both report success, and in the end the file may
hold the shorter data followed by the end of the longer one. -/
theorem C142_writes_fails (fs : FS) (p : Path) (i : Nat) (old a b : List UInt8) (h : HoldsAt fs i p old)
    (hab : a.length < b.length) (hb : b.length ≤ 2 ^ 30) :
    ∃ fs', Interleave (fs, [.write p a, .write p b]) (fs', [.wrote (Res.mkOk ()), .wrote (Res.mkOk ())]) ∧
      HoldsAt fs' i p (a ++ b.drop a.length) ∧ a ++ b.drop a.length ≠ a ∧
      (a ++ b.drop a.length = b ↔ a <+: b) := by
  have hm : maxRW = 2 ^ 30 := by decide
  have e := schedule_interleave [0, 1, 1, 0] (Interleave.refl (fs, [.write p a, .write p b]))
  have n1 := set_node (i := i) h.2 (.file []) i
  rw [if_pos rfl] at n1
  have r1 := set_resolve (d := []) h.2 h.1
  have n2 := set_node (i := i) n1 (.file []) i
  rw [if_pos rfl] at n2
  have r2 := set_resolve (d := []) n1 r1
  have n3 := set_node (i := i) n2 (.file (b ++ ([] : List UInt8).drop b.length)) i
  rw [if_pos rfl] at n3
  have r3 := set_resolve (d := b ++ ([] : List UInt8).drop b.length) n2 r2
  have s1 : (Running.write p a).next fs = (.writing i 0 a, fs.set i (.file [])) := by
    simp only [Running.next, create_eq h.1 h.2]
  have s2 : (Running.write p b).next (fs.set i (.file [])) = (.writing i 0 b, (fs.set i (.file [])).set i (.file [])) := by
    simp only [Running.next, create_eq r1 n1]
  have s3 := next_writing (d := b) n2 (by omega)
  have s4 := next_writing (d := a) n3 (by omega)
  have n4 := set_node (i := i) n3 (.file (a ++ (b ++ ([] : List UInt8).drop b.length).drop a.length)) i
  rw [if_pos rfl] at n4
  have r4 := set_resolve (d := a ++ (b ++ ([] : List UInt8).drop b.length).drop a.length) n3 r3
  simp only [schedule, List.foldl_cons, List.foldl_nil, List.getElem?_cons_zero, List.getElem?_cons_succ, s1, s2, s3, s4,
    List.set_cons_zero, List.set_cons_succ] at e
  refine ⟨_, e, ⟨r4, by rw [n4]; simp⟩, ?_, ?_⟩
  · intro he
    have := congrArg List.length he
    simp only [List.length_append, List.length_drop] at this
    omega
  · constructor
    · intro he; exact ⟨_, he⟩
    · rintro ⟨t, rfl⟩; simp

example : (match schedule [0, 1, 1, 0] (Fs.sample, [.write pa [5], .write pa [7, 8, 9]]) with
    | (fs, _) => fs.nodes[1]?) = some (.file [5, 8, 9]) := by decide +kernel

/-- C142 is violated: while Write replaces the nonempty contents of a file, a Read of it may give nothing, the error io.EOF, or,
if the lengths differ, the new data cut or filled with zeros to the old length. -/
theorem C142_read_fails (fs : FS) (p : Path) (i : Nat) (old data : List UInt8) (h : HoldsAt fs i p old)
    (ho : old ≠ []) (hol : old.length ≤ 2 ^ 30) (hd : data ≠ []) (hdl : data.length ≤ 2 ^ 30) :
    (∃ fs', Interleave (fs, [.write p data, .read p]) (fs', [.wrote (Res.mkOk ()), .got (Res.mkOk [])])) ∧
    (∃ fs', Interleave (fs, [.write p data, .read p]) (fs', [.wrote (Res.mkOk ()), .got (Res.mkErr (some .EOF))])) ∧
    ∃ fs', Interleave (fs, [.write p data, .read p]) (fs', [.wrote (Res.mkOk ()),
      .got (Res.mkOk (data.take old.length ++ List.replicate (old.length - data.length) 0))]) := by
  have hm : maxRW = 2 ^ 30 := by decide
  have hlen : old.length ≠ 0 := fun h0 => ho (List.eq_nil_of_length_eq_zero h0)
  have n1 := set_node (i := i) h.2 (.file []) i
  rw [if_pos rfl] at n1
  have r1 := set_resolve (d := []) h.2 h.1
  have n2 := set_node (i := i) n1 (.file (data ++ ([] : List UInt8).drop data.length)) i
  rw [if_pos rfl] at n2
  have s1 : (Running.write p data).next fs = (.writing i 0 data, fs.set i (.file [])) := by
    simp only [Running.next, create_eq h.1 h.2]
  have s2 := next_writing (d := data) n1 (by omega)
  have o0 : (Running.read p).next fs = (.opened i, fs) := by simp only [Running.next, open_, h.1]
  have o1 : (Running.read p).next (fs.set i (.file [])) = (.opened i, fs.set i (.file [])) := by
    simp only [Running.next, open_, r1]
  have z0 : (Running.opened i).next fs = (.sized i old.length, fs) := by simp only [Running.next, size, h.2]
  have z1 : (Running.opened i).next (fs.set i (.file [])) = (.sized i 0, fs.set i (.file [])) := by
    simp only [Running.next, size, n1, List.length_nil]
  have g1 : (Running.sized i 0).next (fs.set i (.file [])) = (.got (Res.mkOk []), fs.set i (.file [])) := by
    simp only [Running.next, fileRead_eq n1, if_true]
  have g2 : (Running.sized i old.length).next (fs.set i (.file [])) = (.got (Res.mkErr (some .EOF)), fs.set i (.file [])) := by
    simp only [Running.next, fileRead_eq n1, if_neg hlen, List.take_nil, if_true]
  have g3 : (Running.sized i old.length).next
      ((fs.set i (.file [])).set i (.file (data ++ ([] : List UInt8).drop data.length))) =
      (.got (Res.mkOk (data.take old.length ++ List.replicate (old.length - data.length) 0)),
        (fs.set i (.file [])).set i (.file (data ++ ([] : List UInt8).drop data.length))) := by
    have hne : data.take old.length ≠ [] := by
      intro h0
      have := congrArg List.length h0
      rw [List.length_take, List.length_nil] at this
      exact hd (List.eq_nil_of_length_eq_zero (by omega))
    have hr := fileRead_eq n2 old.length
    rw [if_neg hlen, hm, Nat.min_eq_left hol, List.drop_nil, List.append_nil, if_neg hne, List.length_take,
      show old.length - min old.length data.length = old.length - data.length by omega] at hr
    rw [List.drop_nil, List.append_nil]
    simp only [Running.next, hr]
  refine ⟨?_, ?_, ?_⟩
  · have e := schedule_interleave [0, 1, 1, 1, 0] (Interleave.refl (fs, [.write p data, .read p]))
    simp only [schedule, List.foldl_cons, List.foldl_nil, List.getElem?_cons_zero, List.getElem?_cons_succ, s1, o1, z1, g1, s2,
      List.set_cons_zero, List.set_cons_succ] at e
    exact ⟨_, e⟩
  · have e := schedule_interleave [1, 1, 0, 1, 0] (Interleave.refl (fs, [.write p data, .read p]))
    simp only [schedule, List.foldl_cons, List.foldl_nil, List.getElem?_cons_zero, List.getElem?_cons_succ, s1, o0, z0, g2, s2,
      List.set_cons_zero, List.set_cons_succ] at e
    exact ⟨_, e⟩
  · have e := schedule_interleave [1, 1, 0, 0, 1] (Interleave.refl (fs, [.write p data, .read p]))
    simp only [schedule, List.foldl_cons, List.foldl_nil, List.getElem?_cons_zero, List.getElem?_cons_succ, s1, o0, z0, s2, g3,
      List.set_cons_zero, List.set_cons_succ] at e
    exact ⟨_, e⟩

/-! ### A program that is killed -/

/-- C104, full property: whenever Write stops, also because the program is killed, the file has either its old contents or the new
ones.  Proved: after every system call of a Write of any length to an existing file it has its old contents or a beginning of
the new ones; all of them once Write has reported success.  Missing: see `C104_truncated_fails`; the file is empty after
the first system call. -/
theorem C104_killed_partial (fs fs' : FS) (p : Path) (i : Nat) (old data : List UInt8) (rs : List Running)
    (h : HoldsAt fs i p old) (hr : Interleave (fs, [.write p data]) (fs', rs)) :
    (HoldsAt fs' i p old ∧ rs = [.write p data]) ∨
    (∃ k, HoldsAt fs' i p (data.take k) ∧ rs = [.writing i k data]) ∨
    (HoldsAt fs' i p data ∧ rs = [.wrote (Res.mkOk ())]) := by
  have main : ∀ {s t : FS × List Running}, s = (fs, [.write p data]) → Interleave s t →
      (HoldsAt t.1 i p old ∧ t.2 = [.write p data]) ∨
      (∃ k, k ≤ data.length ∧ HoldsAt t.1 i p (data.take k) ∧ t.2 = [.writing i k data]) ∨
      (HoldsAt t.1 i p data ∧ t.2 = [.wrote (Res.mkOk ())]) := by
    intro s t hs ht
    induction ht with
    | refl => subst hs; exact .inl ⟨h, rfl⟩
    | step ht hq ih =>
      rename_i fs1 rs1 q r0
      rcases ih with ⟨hh, e⟩ | ⟨k, hk, hh, e⟩ | ⟨hh, e⟩
      · simp only at hh e
        subst e
        cases q with
        | succ q => simp at hq
        | zero =>
          simp only [List.getElem?_cons_zero, Option.some.injEq] at hq
          subst hq
          have s1 : (Running.write p data).next fs1 = (.writing i 0 data, fs1.set i (.file [])) := by
            simp only [Running.next, create_eq hh.1 hh.2]
          rw [s1]
          refine .inr (.inl ⟨0, Nat.zero_le _, ⟨set_resolve hh.2 hh.1, ?_⟩, rfl⟩)
          simp only
          rw [set_node hh.2, if_pos rfl, List.take_zero]
      · simp only at hh e
        subst e
        cases q with
        | succ q => simp at hq
        | zero =>
          simp only [List.getElem?_cons_zero, Option.some.injEq] at hq
          subst hq
          have hw := writeAt_eq hh.2 k (by rw [List.length_take]; omega) ((data.drop k).take maxRW)
          have hc : (data.take k).take k ++ (data.drop k).take maxRW ++
              (data.take k).drop (k + ((data.drop k).take maxRW).length) = data.take (k + maxRW) := by
            have hz : (data.take k).drop (k + ((data.drop k).take maxRW).length) = [] :=
              List.drop_eq_nil_of_le (by rw [List.length_take]; omega)
            rw [hz, List.append_nil, List.take_take, Nat.min_self, List.take_add]
          rw [hc] at hw
          have hh' : HoldsAt (fs1.set i (.file (data.take (k + maxRW)))) i p (data.take (k + maxRW)) :=
            ⟨set_resolve hh.2 hh.1, by rw [set_node hh.2, if_pos rfl]⟩
          have hlen : ((data.drop k).take maxRW).length = min maxRW (data.length - k) := by simp
          simp only [Running.next, hw]
          by_cases hl : data.length ≤ k + ((data.drop k).take maxRW).length
          · rw [if_pos hl]
            rw [List.take_of_length_le (by omega)] at hh' ⊢
            exact .inr (.inr ⟨hh', rfl⟩)
          · rw [if_neg hl]
            refine .inr (.inl ⟨k + ((data.drop k).take maxRW).length, by omega, ?_, rfl⟩)
            have : k + ((data.drop k).take maxRW).length = k + maxRW := by omega
            rw [this]
            exact hh'
      · simp only at hh e
        subst e
        cases q with
        | succ q => simp at hq
        | zero =>
          simp only [List.getElem?_cons_zero, Option.some.injEq] at hq
          subst hq
          exact .inr (.inr ⟨hh, rfl⟩)
  rcases main rfl hr with a | ⟨k, _, a, b⟩ | a
  · exact .inl a
  · exact .inr (.inl ⟨k, a, b⟩)
  · exact .inr (.inr a)

/-- Killed after os.Create: the old contents are gone. -/
example : (schedule [0] (Fs.sample, [.write pa [5, 6, 7]])).1.nodes[1]? = some (.file []) := by decide

end Gost
