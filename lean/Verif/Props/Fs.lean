import Verif.Lemmas.Fs
/-
Properties C85-C87 and C104-C106: files.
-/
namespace Gost.Fs
open Os

/-- Specification: the path leads to the inode, a file with these contents. -/
def HoldsAt (fs : FS) (i : Nat) (p : Path) (data : List UInt8) : Prop :=
  resolve fs true p = .found i ∧ fs.nodes[i]? = some (.file data)
instance (fs : FS) (i : Nat) (p : Path) (data : List UInt8) : Decidable (HoldsAt fs i p data) :=
  inferInstanceAs (Decidable (_ ∧ _))
/-- Specification: the path leads to a file with these contents. -/
def Holds (fs : FS) (p : Path) (data : List UInt8) : Prop := ∃ i, HoldsAt fs i p data

/-! ### What the functions do -/

theorem ext_holds {keep : Nat → Prop} {fs fs' : FS} (x : Ext keep fs fs') (hk : ∀ k, fs.passable k → keep k)
    {i : Nat} {p : Path} {data : List UInt8} (hi : keep i) (hn : fs'.nodes[i]? = some (.file data))
    (h : resolve fs true p = .found i) : HoldsAt fs' i p data := ⟨resolve_ext x hk hi h, hn⟩

theorem lt_of_node {fs : FS} {k : Nat} {x : Node} (h : fs.nodes[k]? = some x) : k < fs.nodes.length := by
  rw [List.getElem?_eq_some_iff] at h; exact h.1

theorem resolve_absent {fs : FS} {f : Bool} {p : Path} {d : Nat} {n : Name} (h : resolve fs f p = .absent d n) :
    ¬(p.abs = false ∧ p.names = []) ∧
      walk fs f (fs.limit + 1) (if p.abs then 0 else fs.cwd) p.names = .absent d n := by
  unfold resolve at h
  by_cases he : p.abs = false ∧ p.names = []
  · rw [if_pos he] at h; cases h
  · rw [if_neg he] at h; exact ⟨he, h⟩

theorem create_spec {f : Option Errno} {fs fs1 : FS} {p : Path} {i : Nat} (h : create f fs p = .ok (i, fs1)) :
    f = none ∧ HoldsAt fs1 i p [] ∧ Ext (fun _ => True) fs fs1 ∧
    (∀ (k : Nat) (d : List UInt8), k ≠ i → fs.nodes[k]? = some (.file d) → fs1.nodes[k]? = some (.file d)) ∧
    (resolve fs true p = .found i ∨ (i = fs.nodes.length ∧ ∃ d n, resolve fs true p = .absent d n)) := by
  unfold create at h
  cases f with
  | some e => cases h
  | none =>
    simp only at h
    match hr : resolve fs true p with
    | .fail e => rw [hr] at h; cases h
    | .found j =>
      rw [hr] at h
      simp only at h
      match hj : fs.nodes[j]? with
      | some (.dir a b) => rw [hj] at h; cases h
      | some (.link t) => rw [hj] at h; cases h
      | none => rw [hj] at h; cases h
      | some (.file d) =>
        rw [hj] at h
        cases h
        have x := ext_file (data' := []) hj
        have hn : ∀ k : Nat, (fs.set i (.file [])).nodes[k]? = if k = i then some (.file []) else fs.nodes[k]? :=
          fun k => get_set hj
        refine ⟨rfl, ext_holds x (fun _ _ => trivial) trivial (by rw [hn, if_pos rfl]) hr, x, fun k d hk hd => ?_, .inl rfl⟩
        rw [hn, if_neg hk, hd]
    | .absent d n =>
      rw [hr] at h
      simp only at h
      obtain ⟨hp, hw⟩ := resolve_absent hr
      obtain ⟨⟨up, es, hd, hl⟩, h1, h2⟩ := walk_absent hw
      rw [hd] at h
      cases h
      have hg := addNode_get (n := n) (node := .file []) hd
      have hlt := lt_of_node hd
      have hnew : (addNode fs d up es n (.file [])).nodes[fs.nodes.length]? = some (.file []) := by
        rw [hg, if_pos rfl]
      refine ⟨rfl, ⟨?_, hnew⟩, ext_addNode hd (fun t e => by cases e), fun k c hk hc => ?_, .inr ⟨rfl, d, n, rfl⟩⟩
      · unfold resolve
        rw [if_neg hp]
        refine walk_new hd hl ?_ ?_ ?_ hw
        · rw [hg, if_neg (by omega), if_pos rfl]
        · intro t ht; rw [hnew] at ht; cases ht
        · intro k hkd node hk
          have := lt_of_node hk
          rw [hg, if_neg (by omega), if_neg hkd, hk]
      · rw [hg, if_neg hk, if_neg (by rintro rfl; rw [hd] at hc; cases hc), hc]

/-- Write either does nothing and fails, or leaves in the file some first bytes of the data, all of them if it
succeeds; no other file changes. -/
theorem write_spec (cf : Option Errno) (wf : Option (Nat × Errno)) (fs : FS) (p : Path) (data : List UInt8) :
    ((∃ e, (write cf wf fs p data).1 = Res.mkErr (some e)) ∧ (write cf wf fs p data).2 = fs) ∨
    ∃ i k, HoldsAt (write cf wf fs p data).2 i p (data.take k) ∧ Ext (fun _ => True) fs (write cf wf fs p data).2 ∧
      (∀ (j : Nat) (d : List UInt8), j ≠ i → fs.nodes[j]? = some (.file d) →
        (write cf wf fs p data).2.nodes[j]? = some (.file d)) ∧
      (resolve fs true p = .found i ∨ (i = fs.nodes.length ∧ ∃ d n, resolve fs true p = .absent d n)) ∧
      (((write cf wf fs p data).1 = Res.mkOk () ∧ data.take k = data) ∨
       ∃ e, (write cf wf fs p data).1 = Res.mkErr (some e) ∧ wf = some (k, e)) := by
  unfold write
  match hc : create cf fs p with
  | .error e => exact .inl ⟨⟨e, rfl⟩, rfl⟩
  | .ok (i, fs1) =>
    obtain ⟨hcf, hh, x, ho, hres⟩ := create_spec hc
    refine .inr ?_
    have key : ∀ d : List UInt8, HoldsAt (fs1.set i (.file d)) i p d ∧ Ext (fun _ => True) fs (fs1.set i (.file d)) ∧
        (∀ (j : Nat) (d' : List UInt8), j ≠ i → fs.nodes[j]? = some (.file d') →
          (fs1.set i (.file d)).nodes[j]? = some (.file d')) := by
      intro d
      have x1 := ext_file (data' := d) hh.2
      have hn : ∀ k, (fs1.set i (.file d)).nodes[k]? = if k = i then some (.file d) else fs1.nodes[k]? :=
        fun k => get_set hh.2
      refine ⟨ext_holds x1 (fun _ _ => trivial) trivial (by rw [hn, if_pos rfl]) hh.1, x.trans x1, fun j d' hj hd => ?_⟩
      rw [hn, if_neg hj, ho j d' hj hd]
    match wf with
    | none =>
      obtain ⟨k1, k2, k3⟩ := key data
      refine ⟨i, data.length, ?_, k2, k3, hres, .inl ⟨rfl, by simp⟩⟩
      rw [List.take_length]; exact k1
    | some (k, e) =>
      obtain ⟨k1, k2, k3⟩ := key (data.take k)
      exact ⟨i, k, k1, k2, k3, hres, .inr ⟨e, rfl, rfl⟩⟩

theorem mkErr_ne_mkOk {α : Type} {e : Option Errno} {v : α} : (Res.mkErr e : Res Errno α) ≠ Res.mkOk v := by
  intro h
  have := congrArg Res.ok h
  cases this

theorem mkdir_spec {f : Option Errno} {fs fs' : FS} {p : Path} (h : mkdir f fs p = .ok fs') :
    Ext (fun _ => True) fs fs' ∧
    ∀ (k : Nat) (d : List UInt8), fs.nodes[k]? = some (.file d) → fs'.nodes[k]? = some (.file d) := by
  unfold mkdir at h
  cases f with
  | some e => cases h
  | none =>
    simp only at h
    match hp : parent fs p with
    | .error e => rw [hp] at h; cases e <;> cases h
    | .ok (d, up, es, n) =>
      rw [hp] at h
      simp only at h
      match hl : es.lookup n with
      | some j => rw [hl] at h; cases h
      | none =>
        rw [hl] at h
        cases h
        obtain ⟨hd, _⟩ := parent_ok hp
        refine ⟨ext_addNode hd (fun t e => by cases e), fun k c hc => ?_⟩
        have := lt_of_node hc
        rw [addNode_get hd, if_neg (by omega), if_neg (by rintro rfl; rw [hd] at hc; cases hc), hc]

theorem link_spec {f : Option Errno} {fs fs' : FS} {a b : Path} (h : link f fs a b = .ok fs') :
    f = none ∧ ∃ i d up es n, resolve fs false a = .found i ∧ parent fs b = .ok (d, up, es, n) ∧
      es.lookup n = none ∧ (∀ u e, fs.nodes[i]? ≠ some (.dir u e)) ∧ fs' = fs.set d (.dir up (es ++ [(n, i)])) := by
  unfold link at h
  cases f with
  | some e => cases h
  | none =>
    simp only at h
    match ha : resolve fs false a with
    | .fail e => rw [ha] at h; cases h
    | .absent _ _ => rw [ha] at h; cases h
    | .found i =>
      rw [ha] at h
      simp only at h
      match hp : parent fs b with
      | .error e => rw [hp] at h; cases e <;> cases h
      | .ok (d, up, es, n) =>
        rw [hp] at h
        simp only at h
        match hl : es.lookup n with
        | some j => rw [hl] at h; cases h
        | none =>
          rw [hl] at h
          simp only at h
          refine ⟨rfl, i, d, up, es, n, rfl, rfl, hl, ?_⟩
          match hi : fs.nodes[i]? with
          | some (.dir u e) => rw [hi] at h; cases h
          | some (.file c) => rw [hi] at h; cases h; exact ⟨fun u e x => (by cases x), rfl⟩
          | some (.link t) => rw [hi] at h; cases h; exact ⟨fun u e x => (by cases x), rfl⟩
          | none => rw [hi] at h; cases h; exact ⟨fun u e x => (by cases x), rfl⟩

theorem set_dir_file {fs : FS} {d up : Nat} {es es' : List (Name × Nat)} (hd : fs.nodes[d]? = some (.dir up es))
    {k : Nat} {c : List UInt8} (hc : fs.nodes[k]? = some (.file c)) :
    (fs.set d (.dir up es')).nodes[k]? = some (.file c) := by
  show (fs.nodes.set d _)[k]? = _
  rw [get_set hd, if_neg (by rintro rfl; rw [hd] at hc; cases hc), hc]

theorem link_ext {f : Option Errno} {fs fs' : FS} {a b : Path} (h : link f fs a b = .ok fs') :
    Ext (fun _ => True) fs fs' ∧
    ∀ (k : Nat) (d : List UInt8), fs.nodes[k]? = some (.file d) → fs'.nodes[k]? = some (.file d) := by
  obtain ⟨_, i, d, up, es, n, ha, hp, hl, hi, rfl⟩ := link_spec h
  obtain ⟨hd, _⟩ := parent_ok hp
  refine ⟨ext_dir hd fun m k hm _ => ?_, fun k c hc => set_dir_file hd hc⟩
  rw [lookup_concat, hm]; rfl

/-- Resolution of a path whose directory is there. -/
theorem resolve_nofollow {fs : FS} {p : Path} {d up : Nat} {es : List (Name × Nat)} {n : Name}
    (h : parent fs p = .ok (d, up, es, n)) :
    resolve fs false p = match es.lookup n with | some i => .found i | none => .absent d n := by
  obtain ⟨hd, h1, h2, hn, hw⟩ := parent_ok h
  obtain ⟨k, hk⟩ := resolve_parent (f := false) hn hw
  rw [hk]
  match hl : es.lookup n with
  | none => exact walk_last_absent hd h1 h2 hl
  | some i => exact walk_last hd h1 h2 hl (fun e => by cases e)

theorem remove_spec {f : Option Errno} {fs fs' : FS} {p : Path} (h : remove f fs p = .ok fs') :
    f = none ∧ ∃ d up es n i, parent fs p = .ok (d, up, es, n) ∧ es.lookup n = some i ∧
      (∀ u e, fs.nodes[i]? = some (.dir u e) → e = []) ∧ fs' = unentry fs d up es n := by
  unfold remove unlink rmdir at h
  cases f with
  | some e => cases h
  | none =>
    simp only at h
    match hp : parent fs p with
    | .error e => rw [hp] at h; cases h
    | .ok (d, up, es, n) =>
      rw [hp] at h
      simp only at h
      match hl : es.lookup n with
      | none => rw [hl] at h; cases h
      | some i =>
        rw [hl] at h
        simp only at h
        refine ⟨rfl, d, up, es, n, i, rfl, hl, ?_⟩
        match hi : fs.nodes[i]? with
        | some (.dir u []) => rw [hi] at h; cases h; exact ⟨fun u e x => (by cases x; rfl), rfl⟩
        | some (.dir u (x :: e)) => rw [hi] at h; cases h
        | some (.file c) => rw [hi] at h; cases h; exact ⟨fun u e x => (by cases x), rfl⟩
        | some (.link t) => rw [hi] at h; cases h; exact ⟨fun u e x => (by cases x), rfl⟩
        | none => rw [hi] at h; cases h; exact ⟨fun u e x => (by cases x), rfl⟩

theorem unentry_ext {fs : FS} {d up i : Nat} {es : List (Name × Nat)} {n : Name}
    (hd : fs.nodes[d]? = some (.dir up es)) (hl : es.lookup n = some i) :
    Ext (fun k => k ≠ i) fs (unentry fs d up es n) := by
  refine ext_dir hd fun m k hm hk => ?_
  rw [lookup_filter, if_neg (by rintro rfl; rw [hl] at hm; cases hm; exact hk rfl), hm]

theorem remove_ok {fs : FS} {p : Path} {d up i : Nat} {es : List (Name × Nat)} {n : Name}
    (hp : parent fs p = .ok (d, up, es, n)) (hl : es.lookup n = some i)
    (hi : ∀ u e, fs.nodes[i]? = some (.dir u e) → e = []) : remove none fs p = .ok (unentry fs d up es n) := by
  unfold remove unlink rmdir
  simp only [hp, hl]
  match hx : fs.nodes[i]? with
  | some (.dir u e) => cases hi u e hx; rfl
  | some (.file c) => rfl
  | some (.link t) => rfl
  | none => rfl

theorem sysRename_spec {fs fs' : FS} {a b : Path} (h : sysRename fs a b = .ok fs') :
    ∃ d up es n d' up' es' n' i, parent fs a = .ok (d, up, es, n) ∧ parent fs b = .ok (d', up', es', n') ∧
      es.lookup n = some i ∧ ((es'.lookup n' = some i ∧ fs' = fs) ∨
        (es'.lookup n' ≠ some i ∧ fs' = reparent (setEntry (dropEntry fs d n) d' n' i) i d')) := by
  unfold sysRename at h
  match ha : parent fs a, hb : parent fs b with
  | .error e, _ => rw [ha] at h; cases h
  | .ok _, .error e => rw [ha, hb] at h; cases h
  | .ok (d, up, es, n), .ok (d', up', es', n') =>
    rw [ha, hb] at h
    simp only at h
    match hl : es.lookup n with
    | none => rw [hl] at h; cases h
    | some i =>
      rw [hl] at h
      simp only at h
      refine ⟨d, up, es, n, d', up', es', n', i, rfl, rfl, hl, ?_⟩
      by_cases hs : es'.lookup n' = some i
      · rw [if_pos hs] at h; cases h; exact .inl ⟨hs, rfl⟩
      · rw [if_neg hs] at h
        refine .inr ⟨hs, ?_⟩
        repeat' split at h
        all_goals first
          | (injection h with h; exact h.symm)
          | cases h

theorem rename_sys {f : Option Errno} {fs fs' : FS} {a b : Path} (h : Os.rename f fs a b = .ok fs') :
    f = none ∧ sysRename fs a b = .ok fs' := by
  unfold Os.rename at h
  cases f with
  | some e => cases h
  | none =>
    refine ⟨rfl, ?_⟩
    simp only at h
    match hb : lstat fs b with
    | .error e => rw [hb] at h; exact h
    | .ok j =>
      rw [hb] at h
      simp only at h
      match hj : fs.nodes[j]? with
      | some (.dir u e) =>
        rw [hj] at h
        simp only at h
        match ha : lstat fs a with
        | .error e => rw [ha] at h; cases h
        | .ok i =>
          rw [ha] at h
          simp only at h
          by_cases hc : a = b ∨ i ≠ j
          · rw [if_pos hc] at h; cases h
          · rw [if_neg hc] at h; exact h
      | some (.file c) => rw [hj] at h; exact h
      | some (.link t) => rw [hj] at h; exact h
      | none => rw [hj] at h; exact h

/-- Renaming a file: the inodes, and where the paths lead. -/
theorem rename_file {f : Option Errno} {fs fs' : FS} {a b : Path} {i : Nat} {data : List UInt8}
    (h : Os.rename f fs a b = .ok fs') (ha : resolve fs false a = .found i) (hi : fs.nodes[i]? = some (.file data))
    (hb : ∀ j, resolve fs false b = .found j → j ≠ i ∧ ∃ c, fs.nodes[j]? = some (.file c)) :
    resolve fs' true b = .found i ∧ (∃ d n, resolve fs' false a = .absent d n) ∧
    (∀ (k : Nat) (c : List UInt8), fs.nodes[k]? = some (.file c) → fs'.nodes[k]? = some (.file c)) ∧
    Ext (fun k => k ≠ i ∧ resolve fs false b ≠ .found k) fs fs' ∧
    (∀ k, fs.passable k → k ≠ i ∧ resolve fs false b ≠ .found k) := by
  obtain ⟨_, h⟩ := rename_sys h
  obtain ⟨d, up, es, n, d', up', es', n', i', hpa, hpb, hl, h⟩ := sysRename_spec h
  have hra := resolve_nofollow hpa
  have hrb := resolve_nofollow hpb
  rw [hl] at hra
  rw [ha] at hra
  cases hra
  rcases h with ⟨hs, _⟩ | ⟨hs, rfl⟩
  · rw [hs] at hrb
    exact absurd rfl (hb i hrb).1
  obtain ⟨hd, a1, a2, an, aw⟩ := parent_ok hpa
  obtain ⟨hd', b1, b2, bn, bw⟩ := parent_ok hpb
  -- the first directory
  have e1 : dropEntry fs d n = fs.set d (.dir up (es.filter fun e => e.1 ≠ n)) := by
    unfold dropEntry; rw [hd]
  have x1 : Ext (fun k => k ≠ i) fs (dropEntry fs d n) := e1 ▸ unentry_ext hd hl
  have f1 : ∀ (k : Nat) (c : List UInt8), fs.nodes[k]? = some (.file c) → (dropEntry fs d n).nodes[k]? = some (.file c) :=
    fun k c hc => e1 ▸ set_dir_file hd hc
  -- the entries of the second directory then
  have h2 : ∃ es1, (dropEntry fs d n).nodes[d']? = some (.dir up' es1) ∧
      (∀ m k, es1.lookup m = some k → es'.lookup m = some k) ∧ (d = d' → es1.lookup n = none) := by
    rw [e1]
    show ∃ es1, (fs.nodes.set d _)[d']? = _ ∧ _
    rw [get_set hd]
    by_cases hdd : d' = d
    · rw [if_pos hdd]
      rw [hdd, hd] at hd'
      cases hd'
      refine ⟨_, rfl, fun m k hm => ?_, fun _ => by rw [lookup_filter, if_pos rfl]⟩
      rw [lookup_filter] at hm
      by_cases hmn : m = n
      · rw [if_pos hmn] at hm; cases hm
      · rw [if_neg hmn] at hm; exact hm
    · rw [if_neg hdd]
      exact ⟨es', hd', fun _ _ h => h, fun e => absurd e.symm hdd⟩
  obtain ⟨es1, hd1, hsub, hnone⟩ := h2
  have e2 : setEntry (dropEntry fs d n) d' n' i =
      (dropEntry fs d n).set d' (.dir up' (es1.filter (fun e => e.1 ≠ n') ++ [(n', i)])) := by
    unfold setEntry; rw [hd1]
  have x2 : Ext (fun k => k ≠ i ∧ resolve fs false b ≠ .found k) (dropEntry fs d n) (setEntry (dropEntry fs d n) d' n' i) := by
    rw [e2]
    refine ext_dir hd1 fun m k hm hk => ?_
    rw [lookup_concat, lookup_filter]
    by_cases hmn : m = n'
    · exfalso
      have := hsub m k hm
      rw [hmn] at this
      rw [this] at hrb
      exact hk.2 hrb
    · rw [if_neg hmn, hm]; rfl
  have f2 : ∀ (k : Nat) (c : List UInt8), fs.nodes[k]? = some (.file c) →
      (setEntry (dropEntry fs d n) d' n' i).nodes[k]? = some (.file c) :=
    fun k c hc => e2 ▸ set_dir_file hd1 (f1 k c hc)
  have e3 : reparent (setEntry (dropEntry fs d n) d' n' i) i d' = setEntry (dropEntry fs d n) d' n' i := by
    unfold reparent; rw [f2 i data hi]
  rw [e3]
  have x : Ext (fun k => k ≠ i ∧ resolve fs false b ≠ .found k) fs (setEntry (dropEntry fs d n) d' n' i) :=
    (x1.mono fun _ h => h.1).trans x2
  have pass : ∀ k, fs.passable k → k ≠ i ∧ resolve fs false b ≠ .found k := by
    intro k hk
    have nofile : ∀ c, fs.nodes[k]? ≠ some (.file c) := by
      intro c hc
      rcases hk with ⟨u, e, hk⟩ | ⟨t, hk⟩ <;> rw [hc] at hk <;> cases hk
    refine ⟨fun e => ?_, fun e => ?_⟩
    · subst e; exact nofile _ hi
    · obtain ⟨_, c, hc⟩ := hb k e
      exact nofile c hc
  have g2 : (setEntry (dropEntry fs d n) d' n' i).nodes[d']? =
      some (.dir up' (es1.filter (fun e => e.1 ≠ n') ++ [(n', i)])) := by
    rw [e2]
    show ((dropEntry fs d n).nodes.set d' _)[d']? = _
    rw [get_set hd1, if_pos rfl]
  refine ⟨?_, ?_, f2, x, pass⟩
  · have w := walk_ext x pass (pass d' (.inl ⟨_, _, hd'⟩)) bw
    obtain ⟨k, hk⟩ := resolve_parent (f := true) (fs := setEntry (dropEntry fs d n) d' n' i) (p := b) bn
      (by rw [x.limit, x.cwd]; exact w)
    rw [hk]
    refine walk_last g2 b1 b2 ?_ (fun _ t ht => by rw [f2 i data hi] at ht; cases ht)
    rw [lookup_concat, lookup_filter]; simp
  · have w := walk_ext x pass (pass d (.inl ⟨_, _, hd⟩)) aw
    obtain ⟨k, hk⟩ := resolve_parent (f := false) (fs := setEntry (dropEntry fs d n) d' n' i) (p := a) an
      (by rw [x.limit, x.cwd]; exact w)
    refine ⟨d, n, ?_⟩
    rw [hk]
    by_cases hdd : d' = d
    · subst hdd
      refine walk_last_absent g2 a1 a2 ?_
      rw [lookup_concat, lookup_filter, hnone rfl]
      have hnn : n ≠ n' := by
        rintro rfl
        rw [hd] at hd'
        cases hd'
        exact hs hl
      simp [hnn]
    · have hdn : (setEntry (dropEntry fs d n) d' n' i).nodes[d]? = some (.dir up (es.filter fun e => e.1 ≠ n)) := by
        rw [e2]
        show ((dropEntry fs d n).nodes.set d' _)[d]? = _
        rw [get_set hd1, if_neg (Ne.symm hdd), e1]
        show (fs.nodes.set d _)[d]? = _
        rw [get_set hd, if_pos rfl]
      exact walk_last_absent hdn a1 a2 (by rw [lookup_filter, if_pos rfl])

/-! ### Histories -/

/-- The calls of a history that change the file system, with the failures of their system calls. -/
inductive Op where
  | createDir (fault : Option Errno) (p : Path)
  | write (createFault : Option Errno) (writeFault : Option (Nat × Errno)) (p : Path) (data : List UInt8)
  | copy (fault : Option Errno) (a b : Path)
  | removeFile (fault : Option Errno) (p : Path)
  | removeDir (fault : Option Errno) (p : Path)
  | rename (fault : Option Errno) (a b : Path)
  deriving Repr

def Op.run (fs : FS) : Op → FS
  | .createDir f p => (Fs.createDir f fs p).2
  | .write cf wf p data => (Fs.write cf wf fs p data).2
  | .copy f a b => (Fs.copy f fs a b).2
  | .removeFile f p => (Fs.removeFile f fs p).2
  | .removeDir f p => (Fs.removeDir f fs p).2
  | .rename f a b => (Fs.rename f fs a b).2

/-- Specification: the path itself, if it is there, is a file other than `i`, not a directory or symbolic link. -/
def otherFile (fs : FS) (i : Nat) (p : Path) : Bool :=
  match resolve fs false p with
  | .found j => j ≠ i && match fs.nodes[j]? with | some (.file _) => true | _ => false
  | _ => true

theorem otherFile_iff {fs : FS} {i : Nat} {p : Path} (h : otherFile fs i p = true) (j : Nat)
    (hj : resolve fs false p = .found j) : j ≠ i ∧ ∃ c, fs.nodes[j]? = some (.file c) := by
  unfold otherFile at h
  rw [hj] at h
  simp only [Bool.and_eq_true, decide_eq_true_eq] at h
  refine ⟨h.1, ?_⟩
  have h2 := h.2
  match hn : fs.nodes[j]? with
  | some (.file c) => exact ⟨c, rfl⟩
  | some (.dir _ _) => rw [hn] at h2; cases h2
  | some (.link _) => rw [hn] at h2; cases h2
  | none => rw [hn] at h2; cases h2

/-- Specification: the call leaves file `i` alone: it does not write to it, and it removes and renames only other
files (not directories or symbolic links, through which the file could be reached). -/
def Op.Spares (fs : FS) (i : Nat) : Op → Prop
  | .createDir _ _ => True
  | .write _ _ p _ => resolve fs true p ≠ .found i
  | .copy _ _ _ => True
  | .removeFile _ p => otherFile fs i p
  | .removeDir _ p => otherFile fs i p
  | .rename _ a b => otherFile fs i a ∧ otherFile fs i b
instance (fs : FS) (i : Nat) : ∀ op : Op, Decidable (op.Spares fs i)
  | .createDir _ _ => inferInstanceAs (Decidable True)
  | .write _ _ _ _ => inferInstanceAs (Decidable (¬_))
  | .copy _ _ _ => inferInstanceAs (Decidable True)
  | .removeFile _ _ => inferInstanceAs (Decidable (_ = true))
  | .removeDir _ _ => inferInstanceAs (Decidable (_ = true))
  | .rename _ _ _ => inferInstanceAs (Decidable (_ = true ∧ _ = true))

theorem Op.run_holds {fs : FS} {i : Nat} {p : Path} {data : List UInt8} {op : Op} (h : HoldsAt fs i p data)
    (hs : op.Spares fs i) : HoldsAt (op.run fs) i p data := by
  cases op with
  | createDir f q =>
    show HoldsAt (Fs.createDir f fs q).2 i p data
    unfold Fs.createDir
    match hm : mkdir f fs q with
    | .error e => exact h
    | .ok fs' =>
      obtain ⟨x, hf⟩ := mkdir_spec hm
      exact ext_holds x (fun _ _ => trivial) trivial (hf i data h.2) h.1
  | write cf wf q d =>
    show HoldsAt (Fs.write cf wf fs q d).2 i p data
    rcases write_spec cf wf fs q d with ⟨_, e⟩ | ⟨j, k, _, x, ho, hr, _⟩
    · rw [e]; exact h
    · refine ext_holds x (fun _ _ => trivial) trivial (ho i data ?_ h.2) h.1
      rintro rfl
      rcases hr with hr | ⟨hl, _⟩
      · exact hs hr
      · have := lt_of_node h.2; omega
  | copy f a b =>
    show HoldsAt (Fs.copy f fs a b).2 i p data
    unfold Fs.copy
    match hm : link f fs a b with
    | .error e => exact h
    | .ok fs' =>
      obtain ⟨x, hf⟩ := link_ext hm
      exact ext_holds x (fun _ _ => trivial) trivial (hf i data h.2) h.1
  | removeFile f q =>
    show HoldsAt (Fs.removeFile f fs q).2 i p data
    unfold Fs.removeFile
    match hm : remove f fs q with
    | .error e => exact h
    | .ok fs' =>
      obtain ⟨_, d, up, es, n, j, hp, hl, _, rfl⟩ := remove_spec hm
      have hr := resolve_nofollow hp
      rw [hl] at hr
      obtain ⟨hji, c, hc⟩ := otherFile_iff hs j hr
      obtain ⟨hd, _⟩ := parent_ok hp
      refine ext_holds (unentry_ext hd hl) (fun k hk => ?_) hji.symm (set_dir_file hd h.2) h.1
      rintro rfl
      rcases hk with ⟨u, e, hk⟩ | ⟨t, hk⟩ <;> rw [hc] at hk <;> cases hk
  | removeDir f q =>
    show HoldsAt (Fs.removeDir f fs q).2 i p data
    unfold Fs.removeDir
    match hm : remove f fs q with
    | .error e => exact h
    | .ok fs' =>
      obtain ⟨_, d, up, es, n, j, hp, hl, _, rfl⟩ := remove_spec hm
      have hr := resolve_nofollow hp
      rw [hl] at hr
      obtain ⟨hji, c, hc⟩ := otherFile_iff hs j hr
      obtain ⟨hd, _⟩ := parent_ok hp
      refine ext_holds (unentry_ext hd hl) (fun k hk => ?_) hji.symm (set_dir_file hd h.2) h.1
      rintro rfl
      rcases hk with ⟨u, e, hk⟩ | ⟨t, hk⟩ <;> rw [hc] at hk <;> cases hk
  | rename f a b =>
    show HoldsAt (Fs.rename f fs a b).2 i p data
    unfold Fs.rename
    match hm : Os.rename f fs a b with
    | .error e => exact h
    | .ok fs' =>
      have ha := otherFile_iff hs.1
      have hb := otherFile_iff hs.2
      obtain ⟨_, hsys⟩ := rename_sys hm
      obtain ⟨d, up, es, n, d', up', es', n', j, hpa, hpb, hl, hcase⟩ := sysRename_spec hsys
      have hra := resolve_nofollow hpa
      rw [hl] at hra
      obtain ⟨hji, c, hc⟩ := ha j hra
      have hrb := resolve_nofollow hpb
      rcases hcase with ⟨_, rfl⟩ | ⟨hne, _⟩
      · exact h
      · have hb' : ∀ m, resolve fs false b = .found m → m ≠ j ∧ ∃ c, fs.nodes[m]? = some (.file c) := by
          intro m hm'
          refine ⟨?_, (hb m hm').2⟩
          rintro rfl
          rw [hm'] at hrb
          match hlk : es'.lookup n' with
          | none => rw [hlk] at hrb; cases hrb
          | some x => rw [hlk] at hrb; cases hrb; exact hne hlk
        obtain ⟨_, _, hf, x, pass⟩ := rename_file hm hra hc hb'
        exact ext_holds x pass ⟨hji.symm, fun e => (hb i e).1 rfl⟩ (hf i data h.2) h.1

/-- A history of calls. -/
def runAll (fs : FS) : List Op → FS
  | [] => fs
  | op :: ops => runAll (op.run fs) ops
/-- Every call of a history leaves the file alone. -/
def SparesAll (i : Nat) (fs : FS) : List Op → Prop
  | [] => True
  | op :: ops => op.Spares fs i ∧ SparesAll i (op.run fs) ops

theorem runAll_holds {fs : FS} {i : Nat} {p : Path} {data : List UInt8} {ops : List Op} (h : HoldsAt fs i p data)
    (hs : SparesAll i fs ops) : HoldsAt (runAll fs ops) i p data := by
  induction ops generalizing fs with
  | nil => exact h
  | cons op ops ih => exact ih (op.run_holds h hs.1) hs.2

/-! ### Reading -/

theorem read_eq {fs : FS} {i : Nat} {p : Path} {data : List UInt8} (h : HoldsAt fs i p data) :
    read none none fs p = Res.mkOk (data.take maxRW ++ List.replicate (data.length - maxRW) 0) := by
  unfold read open_
  simp only [h.1]
  unfold size fileRead
  simp only [h.2]
  by_cases hl : data.length = 0
  · have : data = [] := List.eq_nil_of_length_eq_zero hl
    subst this
    simp
  · rw [if_neg hl]
    have e : data.take (min data.length maxRW) = data.take maxRW := by
      by_cases hc : data.length ≤ maxRW
      · rw [Nat.min_eq_left hc, List.take_length, List.take_of_length_le hc]
      · rw [Nat.min_eq_right (by omega)]
    have e2 : data.length - (data.take maxRW).length = data.length - maxRW := by rw [List.length_take]; omega
    have e3 : data.take maxRW ≠ [] := by
      intro h0
      have := congrArg List.length h0
      rw [List.length_take, List.length_nil] at this
      have : 0 < maxRW := by decide
      omega
    simp only [e, e2]
    rw [if_neg e3]

theorem readToString_eq (of rf : Option Errno) (fs : FS) (p : Path) : readToString of rf fs p = read of rf fs p := rfl

theorem read_fault (of rf : Option Errno) (fs : FS) (p : Path) :
    read of rf fs p = read none none fs p ∨ ∃ e, read of rf fs p = Res.mkErr (some e) := by
  unfold read
  cases of with
  | some e => exact .inr ⟨e, rfl⟩
  | none =>
    match ho : open_ none fs p with
    | .error e => exact .inl rfl
    | .ok i =>
      simp only
      unfold fileRead
      by_cases hs : size fs i = 0
      · rw [if_pos hs, if_pos hs]; exact .inl rfl
      · rw [if_neg hs, if_neg hs]
        cases rf with
        | some e => exact .inr ⟨e, rfl⟩
        | none => exact .inl rfl

/-- What is read back is the data exactly if the part beyond 1 GiB is zero. -/
theorem take_zeros (data : List UInt8) (m : Nat) :
    data.take m ++ List.replicate (data.length - m) 0 = data ↔ ∀ x ∈ data.drop m, x = 0 := by
  constructor
  · intro h x hx
    have h2 : data.take m ++ List.replicate (data.length - m) 0 = data.take m ++ data.drop m := by
      rw [h, List.take_append_drop]
    rw [List.append_cancel_left_eq] at h2
    rw [← h2] at hx
    exact List.eq_of_mem_replicate hx
  · intro h
    have : data.drop m = List.replicate (data.length - m) 0 := by
      refine List.eq_replicate_iff.2 ⟨by simp, h⟩
    rw [← this, List.take_append_drop]
end Gost.Fs

namespace Gost
open Os Fs

/-- A small file system for the examples: `/a` is a file, `/d` a directory with a file `x`, `/s` a symbolic link
to `a`, `/e` an empty directory. -/
def Fs.sample : FS where
  nodes := [.dir 0 [([97], 1), ([100], 2), ([115], 4), ([101], 5)], .file [1, 2], .dir 0 [([120], 3)], .file [7],
    .link ⟨false, [[97]]⟩, .dir 0 []]
  cwd := 0
  limit := 40
  dirSize := fun _ => 4096
def Fs.pa : Path := ⟨true, [[97]]⟩
def Fs.pb : Path := ⟨true, [[98]]⟩
def Fs.px : Path := ⟨true, [[100], [120]]⟩
def Fs.pd : Path := ⟨true, [[100]]⟩
def Fs.pe : Path := ⟨true, [[101]]⟩
def Fs.ps : Path := ⟨false, [[115]]⟩

/-- **C85**, first half.  After a successful Write the path leads to a file with exactly the data, whatever was there
before, and it does so as long as the calls of the later history spare that file.  (Whether they failed, and
where, does not matter.) -/
theorem C85_write_holds (cf : Option Errno) (wf : Option (Nat × Errno)) (fs : FS) (p : Path) (data : List UInt8)
    (h : (write cf wf fs p data).1 = Res.mkOk ()) :
    ∃ i, HoldsAt (write cf wf fs p data).2 i p data ∧
      ∀ ops, SparesAll i (write cf wf fs p data).2 ops → HoldsAt (runAll (write cf wf fs p data).2 ops) i p data := by
  rcases write_spec cf wf fs p data with ⟨⟨e, he⟩, _⟩ | ⟨i, k, hh, _, _, _, ⟨_, hk⟩ | ⟨e, he, _⟩⟩
  · rw [he] at h; exact absurd h mkErr_ne_mkOk
  · rw [hk] at hh
    exact ⟨i, hh, fun ops hs => runAll_holds hh hs⟩
  · rw [he] at h; exact absurd h mkErr_ne_mkOk

example : (write none none Fs.sample ps [5, 6, 7]).1 = Res.mkOk () := by decide
example : resolve (write none none Fs.sample ps [5, 6, 7]).2 true pa = .found 1 ∧
    (write none none Fs.sample ps [5, 6, 7]).2.nodes[1]? = some (.file [5, 6, 7]) := by decide

/-- **C85**, other files: a call of any history, successful or not, leaves every file alone that it does not write to,
remove or replace. -/
theorem C85_others (fs : FS) (ops : List Op) (i : Nat) (q : Path) (data : List UInt8) (h : HoldsAt fs i q data)
    (hs : SparesAll i fs ops) : HoldsAt (runAll fs ops) i q data := runAll_holds h hs

example : HoldsAt Fs.sample 3 px [7] ∧ SparesAll 3 Fs.sample
    [.write none none pa [9], .createDir none ⟨true, [[99]]⟩, .rename none pa pb, .write none (some (1, .EIO)) pa [4, 4], .removeFile none pa] := by
  refine ⟨by decide, by decide, by decide, by decide, by decide, by decide, trivial⟩

/-- **C85**, second half, for files of at most 1 GiB.  The full property has no bound; it fails beyond
(`C85_large_fails`).  Every call of Read or ReadToString on a file with these contents returns them, unless it
reports an error. -/
theorem C85_read_partial (fs : FS) (p : Path) (data : List UInt8) (h : Holds fs p data) (hl : data.length ≤ 2 ^ 30) :
    read none none fs p = Res.mkOk data ∧ readToString none none fs p = Res.mkOk data ∧
    ∀ of rf, (read of rf fs p = Res.mkOk data ∨ ∃ e, read of rf fs p = Res.mkErr (some e)) ∧
      (readToString of rf fs p = Res.mkOk data ∨ ∃ e, readToString of rf fs p = Res.mkErr (some e)) := by
  obtain ⟨i, h⟩ := h
  have hm : maxRW = 2 ^ 30 := by decide
  have e : read none none fs p = Res.mkOk data := by
    rw [read_eq h, (take_zeros data maxRW).2]
    intro x hx
    rw [List.drop_eq_nil_of_le (by omega)] at hx
    cases hx
  refine ⟨e, by rw [readToString_eq, e], fun of rf => ?_⟩
  rw [readToString_eq]
  have := read_fault of rf fs p
  rw [e] at this
  exact ⟨this, this⟩

example : Holds Fs.sample ps [1, 2] ∧ [1, 2].length ≤ 2 ^ 30 := ⟨⟨1, by decide⟩, by decide⟩
example : read none none Fs.sample ps = Res.mkOk [1, 2] := by decide

/-- **C85**: a Write and a Read, with any history in between. -/
theorem C85_write_read_partial (cf : Option Errno) (wf : Option (Nat × Errno)) (fs : FS) (p : Path) (data : List UInt8)
    (h : (write cf wf fs p data).1 = Res.mkOk ()) (hl : data.length ≤ 2 ^ 30) :
    ∃ i, ∀ ops, SparesAll i (write cf wf fs p data).2 ops →
      read none none (runAll (write cf wf fs p data).2 ops) p = Res.mkOk data ∧
      readToString none none (runAll (write cf wf fs p data).2 ops) p = Res.mkOk data := by
  obtain ⟨i, _, h2⟩ := C85_write_holds cf wf fs p data h
  refine ⟨i, fun ops hs => ?_⟩
  obtain ⟨a, b, _⟩ := C85_read_partial _ p data ⟨i, h2 ops hs⟩ hl
  exact ⟨a, b⟩

/-- **C85** fails beyond 1 GiB: Read reports success, but the bytes after the first 2^30 are zeros. -/
theorem C85_large_fails (fs : FS) (p : Path) (data : List UInt8) (h : Holds fs p data)
    (hx : ∃ k : Nat, 2 ^ 30 ≤ k ∧ ∃ x, data[k]? = some x ∧ x ≠ 0) :
    ∃ got, read none none fs p = Res.mkOk got ∧ readToString none none fs p = Res.mkOk got ∧ got ≠ data ∧
      ∀ k : Nat, 2 ^ 30 ≤ k → k < data.length → got[k]? = some 0 := by
  obtain ⟨i, h⟩ := h
  have hm : maxRW = 2 ^ 30 := by decide
  refine ⟨_, read_eq h, read_eq h, ?_, ?_⟩
  · rw [ne_eq, take_zeros]
    intro hz
    obtain ⟨k, hk, x, hx, hne⟩ := hx
    refine hne (hz x (List.mem_of_getElem? (i := k - maxRW) ?_))
    rw [List.getElem?_drop, show maxRW + (k - maxRW) = k by omega, hx]
  · intro k hk hl
    rw [List.getElem?_append_right (by rw [List.length_take]; omega), List.length_take, List.getElem?_replicate,
      if_pos (by omega)]

/-- A file of 2^30 + 1 ones. -/
example : ∃ (fs : FS) (p : Path) (data : List UInt8), Holds fs p data ∧
    ∃ k : Nat, 2 ^ 30 ≤ k ∧ ∃ x, data[k]? = some x ∧ x ≠ 0 := by
  have key : ∀ data : List UInt8, Holds ⟨[.dir 0 [([97], 1)], .file data], 0, 40, fun _ => 0⟩ pa data :=
    fun data => ⟨1, rfl, rfl⟩
  generalize hN : (2 : Nat) ^ 30 = N
  refine ⟨_, pa, List.replicate (N + 1) 1, key _, N, Nat.le_refl _, 1, ?_, by decide⟩
  rw [List.getElem?_replicate, if_pos (by omega)]

/-- **C104**, as far as it holds.  The full property: a Write that fails or is interrupted leaves the old contents or
the new.  Proved: it leaves everything as it was, or some first bytes of the data; other files do not change; and
if it reports success, all of the data is there.  The states an interruption leaves are those of the faults. -/
theorem C104_write_prefix_partial (cf : Option Errno) (wf : Option (Nat × Errno)) (fs : FS) (p : Path)
    (data : List UInt8) :
    ((write cf wf fs p data).2 = fs ∨ ∃ k, Holds (write cf wf fs p data).2 p (data.take k)) ∧
    ((write cf wf fs p data).1 = Res.mkOk () → Holds (write cf wf fs p data).2 p data) ∧
    (∀ j q d, HoldsAt fs j q d → resolve fs true p ≠ .found j → HoldsAt (write cf wf fs p data).2 j q d) := by
  refine ⟨?_, fun h => ?_, fun j q d h hne => Op.run_holds (op := .write cf wf p data) h hne⟩
  · rcases write_spec cf wf fs p data with ⟨_, e⟩ | ⟨i, k, hh, _⟩
    · exact .inl e
    · exact .inr ⟨k, i, hh⟩
  · obtain ⟨i, hh, _⟩ := C85_write_holds cf wf fs p data h
    exact ⟨i, hh⟩

/-- **C104** fails: Write truncates the file first, so whenever the write after that fails or does not happen, the old
contents are lost and only the bytes written so far are there. -/
theorem C104_truncated_fails (fs : FS) (p : Path) (old data : List UInt8) (h : Holds fs p old) (k : Nat) (e : Errno) :
    (write none (some (k, e)) fs p data).1 = Res.mkErr (some e) ∧
    Holds (write none (some (k, e)) fs p data).2 p (data.take k) := by
  obtain ⟨i, h⟩ := h
  have hc : create none fs p = .ok (i, fs.set i (.file [])) := by
    unfold create; simp only [h.1, h.2]
  have hw : write none (some (k, e)) fs p data =
      (Res.mkErr (some e), (fs.set i (.file [])).set i (.file (data.take k))) := by
    unfold write; rw [hc]; rfl
  rw [hw]
  obtain ⟨_, hh, _⟩ := create_spec hc
  refine ⟨rfl, i, ext_holds (ext_file hh.2) (fun _ _ => trivial) trivial ?_ hh.1⟩
  show ((fs.set i (.file [])).nodes.set i _)[i]? = _
  rw [get_set hh.2, if_pos rfl]
example : ∃ fs', (write none (some (0, .EIO)) Fs.sample pa [5]) = (Res.mkErr (some .EIO), fs') ∧ Holds Fs.sample pa [1, 2] ∧
    Holds fs' pa [] := ⟨_, rfl, ⟨1, by decide⟩, ⟨1, by decide⟩⟩

/-! ### Copy -/

theorem Fs.copy_ok {f : Option Errno} {fs : FS} {a b : Path} (h : (copy f fs a b).1 = Res.mkOk ()) :
    link f fs a b = .ok (copy f fs a b).2 := by
  unfold copy at h ⊢
  match hl : link f fs a b with
  | .error e => rw [hl] at h; exact absurd h mkErr_ne_mkOk
  | .ok fs' => rfl

/-- **C86**, as far as it holds.  The full property: after a successful Copy(a, b), b has a's contents, an existing b
is overwritten, and later writes to a do not change b.  Proved: if a is a file (not a symbolic link), then right
after a successful Copy both have its contents, and all other files are as they were. -/
theorem C86_copy_partial (f : Option Errno) (fs : FS) (a b : Path) (i : Nat) (data : List UInt8)
    (h : (copy f fs a b).1 = Res.mkOk ()) (ha : resolve fs false a = .found i) (hi : fs.nodes[i]? = some (.file data)) :
    Holds (copy f fs a b).2 b data ∧
    (∀ q j d, HoldsAt fs j q d → HoldsAt (copy f fs a b).2 j q d) ∧ (Holds fs a data → Holds (copy f fs a b).2 a data) := by
  have hl := copy_ok h
  obtain ⟨x, hf⟩ := link_ext hl
  have others : ∀ q j d, HoldsAt fs j q d → HoldsAt (copy f fs a b).2 j q d := fun q j d hq =>
    ext_holds x (fun _ _ => trivial) trivial (hf j d hq.2) hq.1
  refine ⟨⟨i, ?_, hf i data hi⟩, others, fun ⟨j, hj⟩ => ⟨j, others a j data hj⟩⟩
  obtain ⟨_, i', d, up, es, n, ha', hp, hn, _, e⟩ := link_spec hl
  rw [ha] at ha'
  cases ha'
  obtain ⟨hd, b1, b2, bn, bw⟩ := parent_ok hp
  have w := walk_ext x (fun _ _ => trivial) trivial bw
  obtain ⟨k, hk⟩ := resolve_parent (f := true) (fs := (copy f fs a b).2) (p := b) bn (by rw [x.limit, x.cwd]; exact w)
  have hg : (copy f fs a b).2.nodes[d]? = some (.dir up (es ++ [(n, i)])) := by
    rw [e]
    show (fs.nodes.set d _)[d]? = _
    rw [get_set hd, if_pos rfl]
  rw [hk]
  refine walk_last hg b1 b2 (by rw [lookup_concat, hn]; simp) (fun _ t ht => ?_)
  rw [hf i data hi] at ht; cases ht

example : (copy none Fs.sample pa pb).1 = Res.mkOk () ∧ resolve Fs.sample false pa = .found 1 ∧
    Fs.sample.nodes[1]? = some (.file [1, 2]) := by decide

/-- **C86** fails for an existing target: Copy never overwrites, it always reports an error. -/
theorem C86_existing_fails (f : Option Errno) (fs : FS) (a b : Path) (j : Nat) (hb : resolve fs false b = .found j) :
    ∃ e, copy f fs a b = (Res.mkErr (some e), fs) := by
  unfold copy
  match hl : link f fs a b with
  | .error e => exact ⟨e, rfl⟩
  | .ok fs' =>
    exfalso
    obtain ⟨_, i, d, up, es, n, ha, hp, hn, _, _⟩ := link_spec hl
    have := resolve_nofollow hp
    rw [hn, hb] at this
    cases this

example : resolve Fs.sample false px = .found 3 := by decide
example : (copy none Fs.sample pa px).1 = Res.mkErr (some .EEXIST) := by decide

/-- **C86** fails for later writes: after a successful Copy of a file, every successful Write to a changes b as well. -/
theorem C86_alias_fails (f : Option Errno) (fs : FS) (a b : Path) (i : Nat) (data data' : List UInt8)
    (h : (copy f fs a b).1 = Res.mkOk ()) (ha : resolve fs false a = .found i) (ha' : HoldsAt fs i a data)
    (cf : Option Errno) (wf : Option (Nat × Errno))
    (hw : (write cf wf (copy f fs a b).2 a data').1 = Res.mkOk ()) :
    Holds (write cf wf (copy f fs a b).2 a data').2 b data' := by
  obtain ⟨⟨j, hb⟩, ho, _⟩ := C86_copy_partial f fs a b i data h ha ha'.2
  have ha2 := ho a i data ha'
  -- the inode of b
  have hji : resolve (copy f fs a b).2 true b = .found i := by
    have hl := copy_ok h
    obtain ⟨x, hf⟩ := link_ext hl
    obtain ⟨_, i', d, up, es, n, hai, hp, hn, _, e⟩ := link_spec hl
    rw [ha] at hai
    cases hai
    obtain ⟨hd, b1, b2, bn, bw⟩ := parent_ok hp
    have w := walk_ext x (fun _ _ => trivial) trivial bw
    obtain ⟨k, hk⟩ := resolve_parent (f := true) (fs := (copy f fs a b).2) (p := b) bn (by rw [x.limit, x.cwd]; exact w)
    have hg : (copy f fs a b).2.nodes[d]? = some (.dir up (es ++ [(n, i)])) := by
      rw [e]
      show (fs.nodes.set d _)[d]? = _
      rw [get_set hd, if_pos rfl]
    rw [hk]
    refine walk_last hg b1 b2 (by rw [lookup_concat, hn]; simp) (fun _ t ht => ?_)
    rw [ha2.2] at ht; cases ht
  rcases write_spec cf wf (copy f fs a b).2 a data' with ⟨⟨e, he⟩, _⟩ | ⟨k, m, hh, x, _, hr, ⟨_, hk⟩ | ⟨e, he, _⟩⟩
  · rw [he] at hw; exact absurd hw mkErr_ne_mkOk
  · rw [hk] at hh
    have hki : k = i := by
      rcases hr with hr | ⟨_, d, n, hr⟩
      · rw [ha2.1] at hr; cases hr; rfl
      · rw [ha2.1] at hr; cases hr
    subst hki
    exact ⟨k, resolve_ext x (fun _ _ => trivial) trivial hji, hh.2⟩
  · rw [he] at hw; exact absurd hw mkErr_ne_mkOk

example : (copy none Fs.sample pa pb).1 = Res.mkOk () ∧ resolve Fs.sample false pa = .found 1 ∧ HoldsAt Fs.sample 1 pa [1, 2] ∧
    (write none none (copy none Fs.sample pa pb).2 pa [9]).1 = Res.mkOk () ∧
    read none none (write none none (copy none Fs.sample pa pb).2 pa [9]).2 pb = Res.mkOk [9] := by decide

/-! ### ReadDir -/

theorem Fs.pushes_data {β : Type} (g : Growth) (f : β → Fs.DirEntry) (l : List β) (v : Vec Fs.DirEntry) :
    (l.foldl (fun v x => v.push g (f x)) v).data = v.data ++ l.map f := by
  induction l generalizing v with
  | nil => simp
  | cons x l ih => rw [List.foldl_cons, ih]; simp [Vec.push, Vec.goAppend]

theorem Fs.entryType_file (e : Os.DirEntry) : entryType e = .file := rfl

theorem Fs.nameLe_trans (a b c : Name) : nameLe a b → nameLe b c → nameLe a c := by
  unfold nameLe
  simp only [decide_eq_true_eq]
  exact List.le_trans
theorem Fs.nameLe_total (a b : Name) : (nameLe a b || nameLe b a) = true := by
  unfold nameLe
  simp only [Bool.or_eq_true, decide_eq_true_eq]
  exact List.le_total a b

/-- The result of ReadDir: as many blank items as there are entries, then the entries in the order of their names,
all of them typed as files. -/
theorem Fs.readDir_eq (g : Growth) (fs : FS) (p : Path) (i up : Nat) (es : List (Name × Nat))
    (h : resolve fs true p = .found i) (hi : fs.nodes[i]? = some (.dir up es)) (hn : es.length < 2 ^ 63) :
    ∃ (v : Vec Fs.DirEntry) (names : List Name), Fs.readDir g none fs p = .ok (Res.mkOk v) ∧
      v.data = List.replicate es.length default ++ names.map (fun n => ⟨n, join p n, .file⟩) ∧
      names.Perm (es.map (·.1)) ∧ names.Pairwise (fun a b => a ≤ b) := by
  unfold Fs.readDir Os.readDir
  simp only [h, hi]
  have hlen : (List.map (fun e : Name × Nat => (⟨e.1, typeOf fs e.2⟩ : Os.DirEntry))
      (es.mergeSort fun a b => nameLe a.1 b.1)).length = es.length := by simp
  rw [hlen]
  simp only [Vec.withLen, makeLen, hn, if_true, Go.bind_ok]
  refine ⟨_, (es.mergeSort fun a b => nameLe a.1 b.1).map (·.1), rfl, ?_, ?_, ?_⟩
  · rw [Fs.pushes_data, List.map_map, List.map_map]
    rfl
  · exact (List.mergeSort_perm es _).map _
  · have := List.pairwise_mergeSort (le := fun a b : Name × Nat => nameLe a.1 b.1)
      (fun a b c => Fs.nameLe_trans a.1 b.1 c.1) (fun a b => Fs.nameLe_total a.1 b.1) es
    rw [List.pairwise_map]
    exact this.imp (by intro a b hab; simpa [nameLe] using hab)

/-- The type of an entry, as the documentation says. -/
def Fs.trueType (fs : FS) (i : Nat) : FileType :=
  match fs.nodes[i]? with
  | some (.dir _ _) => .dir
  | some (.link _) => .symlink
  | _ => .file

/-- **C87**, as far as it holds.  The full property: ReadDir returns exactly one item per entry, with its name and type.
Proved: each entry has an item, in the second half of the result, in the order of the names; its path is the
directory's path with the name (if the directory's path has no "." and ".."); its type is right if the entry is a
file.  The result is right as a whole exactly for the empty directory. -/
theorem C87_readDir_partial (g : Growth) (fs : FS) (p : Path) (i up : Nat) (es : List (Name × Nat))
    (h : resolve fs true p = .found i) (hi : fs.nodes[i]? = some (.dir up es)) (hn : es.length < 2 ^ 63) :
    ∃ v, Fs.readDir g none fs p = .ok (Res.mkOk v) ∧
      ((v.data.drop es.length).map (·.FileName)).Perm (es.map (·.1)) ∧
      ((v.data.drop es.length).map (·.FileName)).Pairwise (fun a b => a ≤ b) ∧
      (∀ x ∈ v.data.drop es.length, x.Path = join p x.FileName) ∧
      (∀ x ∈ v.data.drop es.length, ∀ k, (x.FileName, k) ∈ es → (x.FileType = trueType fs k ↔ trueType fs k = .file)) ∧
      (v.data.length = es.length ↔ es = []) := by
  obtain ⟨v, names, hv, hd, hp, hs⟩ := readDir_eq g fs p i up es h hi hn
  have hdrop : v.data.drop es.length = names.map (fun n => ⟨n, join p n, .file⟩) := by
    rw [hd, List.drop_left' (by simp)]
  have hnames : (names.map (fun n => (⟨n, join p n, .file⟩ : Fs.DirEntry))).map (·.FileName) = names := by
    rw [List.map_map]
    exact (List.map_congr_left (fun _ _ => rfl)).trans (List.map_id names)
  refine ⟨v, hv, ?_, ?_, ?_, ?_, ?_⟩
  · rw [hdrop, hnames]; exact hp
  · rw [hdrop, hnames]; exact hs
  · rw [hdrop]
    intro x hx
    obtain ⟨n, _, rfl⟩ := List.mem_map.1 hx
    rfl
  · rw [hdrop]
    intro x hx k _
    obtain ⟨n, _, rfl⟩ := List.mem_map.1 hx
    exact eq_comm
  · rw [hd]
    have := hp.length_eq
    simp only [List.length_append, List.length_replicate, List.length_map] at this ⊢
    rw [this]
    constructor
    · intro e; exact List.eq_nil_of_length_eq_zero (by omega)
    · rintro rfl; rfl

example : resolve Fs.sample true ⟨true, []⟩ = .found 0 ∧
    Fs.sample.nodes[0]? = some (.dir 0 [([97], 1), ([100], 2), ([115], 4), ([101], 5)]) := by decide

/-- The path of an item is the path of the directory with the name added, if there is nothing to clean up
(no `.`, whose bytes are 46, and no `..`). -/
theorem C87_path_partial (p : Path) (n : Name) (hp : ∀ m ∈ p.names, m ≠ [46] ∧ m ≠ [46, 46])
    (hn : n ≠ [46] ∧ n ≠ [46, 46]) :
    join p n = ⟨p.abs, p.names ++ [n]⟩ := by
  have key : ∀ (l acc : List Name), (∀ m ∈ l, m ≠ dot ∧ m ≠ dotdot) → cleanNames p.abs acc l = acc ++ l := by
    intro l
    induction l with
    | nil => intro acc _; simp [cleanNames]
    | cons m l ih =>
      intro acc hl
      have hm := hl m (by simp)
      rw [cleanNames, if_neg hm.1, if_neg hm.2, ih _ (fun x hx => hl x (by simp [hx]))]
      simp
  unfold join
  rw [key]
  · rfl
  · intro m hm
    rcases List.mem_append.1 hm with h | h
    · exact hp m h
    · rw [List.mem_singleton.1 h]; exact hn

/-- **C87** fails for every directory that is not empty: the result has twice as many items, the first of them blank
(no name, no type), and directories and symbolic links are typed as files. -/
theorem C87_blank_fails (g : Growth) (fs : FS) (p : Path) (i up : Nat) (es : List (Name × Nat))
    (h : resolve fs true p = .found i) (hi : fs.nodes[i]? = some (.dir up es)) (hn : es.length < 2 ^ 63) (he : es ≠ []) :
    ∃ v, Fs.readDir g none fs p = .ok (Res.mkOk v) ∧ v.data.length = 2 * es.length ∧ v.data.length ≠ es.length ∧
      (∀ k < es.length, v.data[k]? = some ⟨[], ⟨false, []⟩, .none⟩) ∧
      (∀ x ∈ v.data, x.FileType.isDir = false ∧ x.FileType.isSymlink = false) ∧
      ∀ k x, v.data[k]? = some x → (x.FileType.isFile = true ↔ es.length ≤ k) := by
  obtain ⟨v, names, hv, hd, hp, _⟩ := readDir_eq g fs p i up es h hi hn
  have hlen : v.data.length = 2 * es.length := by
    rw [hd]
    have := hp.length_eq
    simp only [List.length_append, List.length_replicate, List.length_map] at this ⊢
    omega
  have hpos := List.length_pos_iff.2 he
  refine ⟨v, hv, hlen, by omega, ?_, ?_, ?_⟩
  · intro k hk
    rw [hd, List.getElem?_append_left (by simpa using hk), List.getElem?_replicate, if_pos hk]
    rfl
  · intro x hx
    rw [hd] at hx
    rcases List.mem_append.1 hx with hx | hx
    · rw [List.eq_of_mem_replicate hx]; decide
    · obtain ⟨n, _, rfl⟩ := List.mem_map.1 hx
      exact ⟨rfl, rfl⟩
  · intro k x hx
    rw [hd] at hx
    by_cases hk : k < es.length
    · rw [List.getElem?_append_left (by simpa using hk), List.getElem?_replicate, if_pos hk] at hx
      cases hx
      exact ⟨fun h => (by cases h), fun h => (by omega)⟩
    · rw [List.getElem?_append_right (by simpa using hk)] at hx
      obtain ⟨n, _, rfl⟩ := List.mem_map.1 (List.mem_of_getElem? hx)
      exact ⟨fun _ => by omega, fun _ => rfl⟩

/-! ### RemoveFile and RemoveDir -/

/-- Specification: the name is gone from the directory, and nothing else has changed. -/
def Fs.OnlyUnlinked (fs fs' : FS) (d : Nat) (n : Name) : Prop :=
  (∃ up es es', fs.nodes[d]? = some (.dir up es) ∧ fs'.nodes[d]? = some (.dir up es') ∧ es'.lookup n = none ∧
    ∀ m, m ≠ n → es'.lookup m = es.lookup m) ∧ ∀ k : Nat, k ≠ d → fs'.nodes[k]? = fs.nodes[k]?

theorem Fs.unentry_only {fs : FS} {d up : Nat} {es : List (Name × Nat)} {n : Name}
    (hd : fs.nodes[d]? = some (.dir up es)) : OnlyUnlinked fs (unentry fs d up es n) d n := by
  refine ⟨⟨up, es, es.filter fun e => e.1 ≠ n, hd, ?_, ?_, ?_⟩, ?_⟩
  · show (fs.nodes.set d _)[d]? = _
    rw [get_set hd, if_pos rfl]
  · rw [lookup_filter, if_pos rfl]
  · intro m hm; rw [lookup_filter, if_neg hm]
  · intro k hk
    show (fs.nodes.set d _)[k]? = _
    rw [get_set hd, if_neg hk]

/-- **C105**, as far as it holds.  The full property: RemoveFile removes files and refuses directories, RemoveDir
removes empty directories and refuses everything else.  Proved: the right uses succeed and remove just that name,
a directory with entries is refused by both, and whenever one of them fails nothing has changed. -/
theorem C105_remove_partial (fs : FS) (p : Path) (d up i : Nat) (es : List (Name × Nat)) (n : Name)
    (hp : parent fs p = .ok (d, up, es, n)) (hl : es.lookup n = some i) :
    (∀ data, fs.nodes[i]? = some (.file data) → (removeFile none fs p).1 = Res.mkOk () ∧
      OnlyUnlinked fs (removeFile none fs p).2 d n ∧ (∃ d n, resolve (removeFile none fs p).2 false p = .absent d n) ∧
      ∀ q j c, j ≠ i → HoldsAt fs j q c → HoldsAt (removeFile none fs p).2 j q c) ∧
    (∀ u, fs.nodes[i]? = some (.dir u []) → (removeDir none fs p).1 = Res.mkOk () ∧
      OnlyUnlinked fs (removeDir none fs p).2 d n) ∧
    (∀ u x r, fs.nodes[i]? = some (.dir u (x :: r)) → ∀ f, (∃ e, removeFile f fs p = (Res.mkErr (some e), fs)) ∧
      ∃ e, removeDir f fs p = (Res.mkErr (some e), fs)) ∧
    (∀ f, (removeFile f fs p).1 ≠ Res.mkOk () → (removeFile f fs p).2 = fs) ∧
    (∀ f, (removeDir f fs p).1 ≠ Res.mkOk () → (removeDir f fs p).2 = fs) := by
  obtain ⟨hd, a1, a2, an, aw⟩ := parent_ok hp
  refine ⟨fun data hi => ?_, fun u hi => ?_, fun u x r hi f => ?_, fun f h => ?_, fun f h => ?_⟩
  · have hr := remove_ok hp hl (fun u e h => by rw [hi] at h; cases h)
    have he : removeFile none fs p = (Res.mkOk (), unentry fs d up es n) := by unfold removeFile; rw [hr]
    rw [he]
    have x := unentry_ext hd hl
    have pass : ∀ k, fs.passable k → k ≠ i := by
      rintro k hk rfl
      rcases hk with ⟨u, e, hk⟩ | ⟨t, hk⟩ <;> rw [hi] at hk <;> cases hk
    refine ⟨rfl, unentry_only hd, ?_, fun q j c hj hq => ext_holds x pass hj (set_dir_file hd hq.2) hq.1⟩
    have w := walk_ext x pass (pass d (.inl ⟨_, _, hd⟩)) aw
    obtain ⟨k, hk⟩ := resolve_parent (f := false) (fs := unentry fs d up es n) (p := p) an
      (by rw [x.limit, x.cwd]; exact w)
    refine ⟨d, n, ?_⟩
    show resolve (unentry fs d up es n) false p = _
    rw [hk]
    refine walk_last_absent (up := up) (es := es.filter fun e => e.1 ≠ n) ?_ a1 a2 (by rw [lookup_filter, if_pos rfl])
    show (fs.nodes.set d _)[d]? = _
    rw [get_set hd, if_pos rfl]
  · have hr := remove_ok hp hl (fun u e h => by rw [hi] at h; cases h; rfl)
    have he : removeDir none fs p = (Res.mkOk (), unentry fs d up es n) := by unfold removeDir; rw [hr]
    rw [he]
    exact ⟨rfl, unentry_only hd⟩
  · have hr : ∃ e, remove f fs p = .error e := by
      match h : remove f fs p with
      | .error e => exact ⟨e, rfl⟩
      | .ok fs' =>
        exfalso
        obtain ⟨_, d', up', es', n', i', hp', hl', hdir, _⟩ := remove_spec h
        rw [hp] at hp'
        cases hp'
        rw [hl] at hl'
        cases hl'
        cases hdir u _ hi
    obtain ⟨e, hr⟩ := hr
    exact ⟨⟨e, by unfold removeFile; rw [hr]⟩, ⟨e, by unfold removeDir; rw [hr]⟩⟩
  · unfold removeFile at h ⊢
    match hr : remove f fs p with
    | .error e => rfl
    | .ok fs' => rw [hr] at h; exact absurd rfl h
  · unfold removeDir at h ⊢
    match hr : remove f fs p with
    | .error e => rfl
    | .ok fs' => rw [hr] at h; exact absurd rfl h

example : parent Fs.sample px = .ok (2, 0, [([120], 3)], [120]) ∧ [([120], 3)].lookup ([120] : Name) = some 3 ∧
    Fs.sample.nodes[3]? = some (.file [7]) := ⟨rfl, rfl, rfl⟩
example : (removeDir none Fs.sample pd).1 = Res.mkErr (some .ENOTEMPTY) ∧ (removeDir none Fs.sample pe).1 = Res.mkOk () := by
  decide

/-- **C105** fails: RemoveDir removes files (and symbolic links), and RemoveFile removes empty directories. -/
theorem C105_remove_fails (fs : FS) (p : Path) (d up i : Nat) (es : List (Name × Nat)) (n : Name)
    (hp : parent fs p = .ok (d, up, es, n)) (hl : es.lookup n = some i) :
    (∀ data, fs.nodes[i]? = some (.file data) → (removeDir none fs p).1 = Res.mkOk () ∧
      OnlyUnlinked fs (removeDir none fs p).2 d n) ∧
    (∀ u, fs.nodes[i]? = some (.dir u []) → (removeFile none fs p).1 = Res.mkOk () ∧
      OnlyUnlinked fs (removeFile none fs p).2 d n) := by
  obtain ⟨h1, h2, _⟩ := C105_remove_partial fs p d up i es n hp hl
  exact ⟨fun data hi => ⟨(h1 data hi).1, (h1 data hi).2.1⟩, fun u hi => h2 u hi⟩

example : (removeDir none Fs.sample px).1 = Res.mkOk () ∧ (removeFile none Fs.sample pe).1 = Res.mkOk () := by decide

/-! ### Rename -/

theorem Fs.rename_ok {f : Option Errno} {fs : FS} {a b : Path} (h : (Fs.rename f fs a b).1 = Res.mkOk ()) :
    Os.rename f fs a b = .ok (Fs.rename f fs a b).2 := by
  unfold Fs.rename at h ⊢
  match hl : Os.rename f fs a b with
  | .error e => rw [hl] at h; exact absurd h mkErr_ne_mkOk
  | .ok fs' => rfl

/-- **C106**, for files.  The full property: after a successful Rename(a, b), b is what a was, a does not exist any
more, and nothing else changes.  Proved for a file a, if b does not exist or is another file; directories are left
out, and it fails if a and b are the same file (`C106_same_fails`). -/
theorem C106_rename_partial (f : Option Errno) (fs : FS) (a b : Path) (i : Nat) (data : List UInt8)
    (h : (Fs.rename f fs a b).1 = Res.mkOk ()) (ha : resolve fs false a = .found i)
    (hi : fs.nodes[i]? = some (.file data))
    (hb : ∀ j, resolve fs false b = .found j → j ≠ i ∧ ∃ c, fs.nodes[j]? = some (.file c)) :
    Holds (Fs.rename f fs a b).2 b data ∧ (∃ d n, resolve (Fs.rename f fs a b).2 false a = .absent d n) ∧
    ∀ q j c, j ≠ i → resolve fs false b ≠ .found j → HoldsAt fs j q c → HoldsAt (Fs.rename f fs a b).2 j q c := by
  obtain ⟨h1, h2, hf, x, pass⟩ := rename_file (rename_ok h) ha hi hb
  exact ⟨⟨i, h1, hf i data hi⟩, h2, fun q j c hji hjb hq => ext_holds x pass ⟨hji, hjb⟩ (hf j c hq.2) hq.1⟩

example : (Fs.rename none Fs.sample pa px).1 = Res.mkOk () ∧ resolve Fs.sample false pa = .found 1 ∧
    Fs.sample.nodes[1]? = some (.file [1, 2]) ∧ resolve Fs.sample false px = .found 3 ∧
    Fs.sample.nodes[3]? = some (.file [7]) := by decide

/-- A Rename that reports an error changes nothing. -/
theorem C106_error_unchanged_partial (f : Option Errno) (fs : FS) (a b : Path) (h : (Fs.rename f fs a b).1 ≠ Res.mkOk ()) :
    (Fs.rename f fs a b).2 = fs := by
  unfold Fs.rename at h ⊢
  match hr : Os.rename f fs a b with
  | .error e => rfl
  | .ok fs' => rw [hr] at h; exact absurd rfl h

example : (Fs.rename none Fs.sample pb pa).1 ≠ Res.mkOk () := by decide

/-- **C106** fails: if a and b are names of the same file, as they are after Copy(a, b), Rename(a, b) reports success
and does nothing: a is still there. -/
theorem C106_same_fails (fs : FS) (a b : Path) (i d up : Nat) (es : List (Name × Nat)) (n : Name) (data : List UInt8)
    (h : (copy none fs a b).1 = Res.mkOk ()) (hp : parent (copy none fs a b).2 a = .ok (d, up, es, n))
    (ha : resolve fs false a = .found i) (hi : fs.nodes[i]? = some (.file data)) (haa : Holds fs a data) :
    Fs.rename none (copy none fs a b).2 a b = (Res.mkOk (), (copy none fs a b).2) ∧
    Holds (copy none fs a b).2 a data := by
  have hl := copy_ok h
  obtain ⟨x, hf⟩ := link_ext hl
  refine ⟨?_, (C86_copy_partial none fs a b i data h ha hi).2.2 haa⟩
  obtain ⟨_, i', d', up', es', n', hai, hpb, hn, _, e⟩ := link_spec hl
  rw [ha] at hai
  cases hai
  obtain ⟨hd, b1, b2, bn, bw⟩ := parent_ok hpb
  have hg : (copy none fs a b).2.nodes[d']? = some (.dir up' (es' ++ [(n', i)])) := by
    rw [e]
    show (fs.nodes.set d' _)[d']? = _
    rw [get_set hd, if_pos rfl]
  have w := walk_ext x (fun _ _ => trivial) trivial bw
  -- the directories of both afterwards
  have hpb' : parent (copy none fs a b).2 b = .ok (d', up', es' ++ [(n', i)], n') := by
    unfold parent
    rw [bn]
    simp only [List.getLast?_append, List.getLast?_singleton, Option.some_or, List.dropLast_concat]
    rw [if_neg (by rintro (h | h); exact b1 h; exact b2 h), x.limit, x.cwd, w]
    simp only [hg]
  have ha2 : resolve (copy none fs a b).2 false a = .found i := resolve_ext x (fun _ _ => trivial) trivial ha
  have hla : es.lookup n = some i := by
    have := resolve_nofollow hp
    rw [ha2] at this
    match hq : es.lookup n with
    | none => rw [hq] at this; cases this
    | some j => rw [hq] at this; cases this; rfl
  have hlb : (es' ++ [(n', i)]).lookup n' = some i := by rw [lookup_concat, hn]; simp
  have hsys : sysRename (copy none fs a b).2 a b = .ok (copy none fs a b).2 := by
    unfold sysRename
    rw [hp, hpb']
    simp only
    rw [hla]
    simp only
    rw [if_pos hlb]
  unfold Fs.rename Os.rename
  have hlst : lstat (copy none fs a b).2 b = .ok i := by
    unfold lstat
    rw [resolve_nofollow hpb']
    simp only [hlb]
  simp only [hlst, hf i data hi, hsys]

example : (copy none Fs.sample pa pb).1 = Res.mkOk () ∧ resolve Fs.sample false pa = .found 1 ∧
    Fs.sample.nodes[1]? = some (.file [1, 2]) ∧
    (Fs.rename none (copy none Fs.sample pa pb).2 pa pb).1 = Res.mkOk () ∧
    read none none (Fs.rename none (copy none Fs.sample pa pb).2 pa pb).2 pa = Res.mkOk [1, 2] := by decide
end Gost
