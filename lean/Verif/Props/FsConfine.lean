import Verif.Props.FsElect
/-
Property C173: a program that only uses paths below a directory changes nothing outside it.
-/
namespace Gost
open Os Fs Spec

namespace Fs
/-- The paths a call is given. -/
def Op.paths : Op → List Path
  | .createDir _ p => [p]
  | .write _ _ p _ => [p]
  | .copy _ a b => [a, b]
  | .removeFile _ p => [p]
  | .removeDir _ p => [p]
  | .rename _ a b => [a, b]
end Fs

namespace Spec
/-- The path leads below the directory `/base`, inode `a`: it starts with it, or it is relative and `a` is the working
directory; it goes on, and without `..`. -/
def Below (fs : FS) (base : List Name) (a : Nat) (p : Path) : Prop :=
  ∃ q, q ≠ [] ∧ dotdot ∉ q ∧ ((p.abs = true ∧ p.names = base ++ q) ∨ (p.abs = false ∧ fs.cwd = a ∧ p.names = q))
end Spec

namespace Fs
namespace Confine
/-- Inside there are no links, and no names that lead outside. -/
structure Shut (S : Nat → Prop) (fs : FS) : Prop where
  closed : ∀ i n k, S i → inode fs i n = some k → S k
  nolink : ∀ i p, S i → fs.nodes[i]? ≠ some (.link p)

/-- What a call below the directory does. -/
structure Eff (S : Nat → Prop) (fs fs' : FS) : Prop where
  shut : Shut S fs'
  same : ∀ k, ¬ S k → fs'.nodes[k]? = fs.nodes[k]?
  dirs : ∀ k, k < fs.nodes.length → (IsDir fs' k ↔ IsDir fs k)
  length : fs.nodes.length ≤ fs'.nodes.length
  cwd : fs'.cwd = fs.cwd
  limit : fs'.limit = fs.limit

variable {S : Nat → Prop}

theorem Eff.refl {fs : FS} (h : Shut S fs) : Eff S fs fs := ⟨h, fun _ _ => rfl, fun _ _ => Iff.rfl, Nat.le_refl _, rfl, rfl⟩

theorem Eff.trans {fs fs1 fs2 : FS} (h : Eff S fs fs1) (h' : Eff S fs1 fs2) : Eff S fs fs2 :=
  ⟨h'.shut, fun k hk => (h'.same k hk).trans (h.same k hk),
    fun k hk => (h'.dirs k (Nat.lt_of_lt_of_le hk h.length)).trans (h.dirs k hk), Nat.le_trans h.length h'.length,
    h'.cwd.trans h.cwd, h'.limit.trans h.limit⟩

/-- A directory inside gets other entries, all inside. -/
theorem set_dir {fs : FS} {d up up' : Nat} {es es' : List (Name × Nat)} (h : Shut S fs) (hs : S d)
    (hd : fs.nodes[d]? = some (.dir up es)) (he : ∀ n k, es'.lookup n = some k → S k) :
    Eff S fs (fs.set d (.dir up' es')) := by
  have g : ∀ k : Nat, (fs.set d (.dir up' es')).nodes[k]? = if k = d then some (.dir up' es') else fs.nodes[k]? :=
    fun k => get_set hd
  refine ⟨⟨?_, ?_⟩, ?_, ?_, ?_, rfl, rfl⟩
  · intro i n k hi hk
    by_cases hid : i = d
    · unfold inode at hk
      rw [g i, if_pos hid] at hk
      exact he n k hk
    · unfold inode at hk
      rw [g i, if_neg hid] at hk
      exact h.closed i n k hi hk
  · intro i p hi
    rw [g i]
    split
    · intro e; cases e
    · exact h.nolink i p hi
  · intro k hk
    rw [g k, if_neg fun (e : k = d) => hk (by rw [e]; exact hs)]
  · intro k _
    unfold IsDir
    rw [g k]
    split
    · next e => rw [e]; exact ⟨fun _ => ⟨up, es, hd⟩, fun _ => ⟨up', es', rfl⟩⟩
    · exact Iff.rfl
  · show _ ≤ (fs.nodes.set d _).length
    rw [List.length_set]
    exact Nat.le_refl _

/-- A file inside gets another content. -/
theorem set_file {fs : FS} {i : Nat} {c c' : List UInt8} (h : Shut S fs) (hs : S i)
    (hi : fs.nodes[i]? = some (.file c)) : Eff S fs (fs.set i (.file c')) := by
  have g : ∀ k : Nat, (fs.set i (.file c')).nodes[k]? = if k = i then some (.file c') else fs.nodes[k]? :=
    fun k => get_set hi
  refine ⟨⟨?_, ?_⟩, ?_, ?_, ?_, rfl, rfl⟩
  · intro j n k hj hk
    unfold inode at hk
    rw [g j] at hk
    split at hk
    · next hz =>
      split at hz
      · cases hz
      · exact h.closed j n k hj (by unfold inode; rw [hz]; exact hk)
    · cases hk
  · intro j p hj
    rw [g j]
    split
    · intro e; cases e
    · exact h.nolink j p hj
  · intro k hk
    rw [g k, if_neg fun (e : k = i) => hk (by rw [e]; exact hs)]
  · intro k _
    unfold IsDir
    rw [g k]
    split
    · next e =>
      rw [e, hi]
      exact ⟨fun ⟨u, es, e⟩ => (by cases e), fun ⟨u, es, e⟩ => (by cases e)⟩
    · exact Iff.rfl
  · show _ ≤ (fs.nodes.set i _).length
    rw [List.length_set]
    exact Nat.le_refl _

/-- A new file or an empty directory under a new name inside. -/
theorem add_node {fs : FS} {d up : Nat} {es : List (Name × Nat)} {n : Name} {node : Node} (h : Shut S fs) (hs : S d)
    (hd : fs.nodes[d]? = some (.dir up es)) (hn : S fs.nodes.length)
    (hnode : (∃ c, node = .file c) ∨ ∃ u, node = .dir u []) : Eff S fs (addNode fs d up es n node) := by
  have g := fun k => addNode_get (n := n) (node := node) hd k
  have hdl : d < fs.nodes.length := lt_of_node hd
  refine ⟨⟨?_, ?_⟩, ?_, ?_, ?_, rfl, rfl⟩
  · intro i m k hi hk
    unfold inode at hk
    rw [g i] at hk
    by_cases h1 : i = fs.nodes.length
    · rw [if_pos h1] at hk
      rcases hnode with ⟨c, rfl⟩ | ⟨u, rfl⟩
      · cases hk
      · cases hk
    · rw [if_neg h1] at hk
      by_cases h2 : i = d
      · rw [if_pos h2] at hk
        simp only [lookup_concat] at hk
        cases hl : es.lookup m with
        | some j =>
          rw [hl] at hk
          cases hk
          exact h.closed d m k hs (by rw [entry_of hd, hl])
        | none =>
          rw [hl] at hk
          by_cases hm : m = n
          · rw [if_pos hm] at hk; cases hk; exact hn
          · rw [if_neg hm] at hk; cases hk
      · rw [if_neg h2] at hk
        exact h.closed i m k hi hk
  · intro i p hi
    rw [g i]
    split
    · rcases hnode with ⟨c, rfl⟩ | ⟨u, rfl⟩ <;> intro e <;> cases e
    · split
      · intro e; cases e
      · exact h.nolink i p hi
  · intro k hk
    rw [g k, if_neg fun (e : k = fs.nodes.length) => hk (by rw [e]; exact hn),
      if_neg fun (e : k = d) => hk (by rw [e]; exact hs)]
  · intro k hk
    unfold IsDir
    rw [g k, if_neg (Nat.ne_of_lt hk)]
    split
    · next e => rw [e]; exact ⟨fun _ => ⟨up, es, hd⟩, fun _ => ⟨up, _, rfl⟩⟩
    · exact Iff.rfl
  · show _ ≤ ((fs.nodes.set d _) ++ [node]).length
    simp

/-- From inside, without `..`, a walk stays inside. -/
theorem walk_inside {fs : FS} (h : Shut S fs) {f : Bool} (fuel : Nat) {cur : Nat} {ns : List Name} (hc : S cur)
    (hn : dotdot ∉ ns) :
    (∀ i, walk fs f fuel cur ns = .found i → S i) ∧ ∀ d n, walk fs f fuel cur ns = .absent d n → S d := by
  induction fuel generalizing cur ns with
  | zero =>
    cases ns with
    | nil => exact ⟨fun i e => by cases e; exact hc, fun d n e => by cases e⟩
    | cons m ns => exact ⟨fun i e => (by cases e), fun d n e => (by cases e)⟩
  | succ fuel ih =>
    cases ns with
    | nil => exact ⟨fun i e => by cases e; exact hc, fun d n e => by cases e⟩
    | cons m ns =>
      have hm : m ≠ dotdot := fun e => hn (by rw [e]; exact List.mem_cons_self)
      have hns : dotdot ∉ ns := fun e => hn (List.mem_cons_of_mem _ e)
      rw [walk]
      match hcur : fs.nodes[cur]? with
      | none => exact ⟨fun i e => (by cases e), fun d n e => (by cases e)⟩
      | some (.file c) => exact ⟨fun i e => (by cases e), fun d n e => (by cases e)⟩
      | some (.link t) => exact ⟨fun i e => (by cases e), fun d n e => (by cases e)⟩
      | some (.dir up es) =>
        simp only [if_neg hm]
        by_cases h1 : m = dot
        · simp only [if_pos h1]; exact ih hc hns
        · simp only [if_neg h1]
          cases hl : es.lookup m with
          | none =>
            simp only
            split
            · exact ⟨fun i e => (by cases e), fun d n e => (by cases e; exact hc)⟩
            · exact ⟨fun i e => (by cases e), fun d n e => (by cases e)⟩
          | some j =>
            have hj : S j := h.closed cur m j hc (by rw [entry_of hcur, hl])
            simp only
            split
            · next t ht => exact absurd ht (h.nolink j t hj)
            · exact ih hj hns

/-- A walk that first goes down to a directory inside. -/
theorem walk_into {fs : FS} (t : Tree fs) (h : Shut S fs) {f : Bool} {s a : Nat} {base q : List Name}
    (hb : reach fs s base = some a) (ha : S a) (hd : IsDir fs a) (hq : dotdot ∉ q) (fuel : Nat) :
    (∀ i, walk fs f fuel s (base ++ q) = .found i → S i) ∧
      ∀ d n, walk fs f fuel s (base ++ q) = .absent d n → S d := by
  induction base generalizing s fuel with
  | nil => cases hb; exact walk_inside h fuel ha hq
  | cons m base ih =>
    cases fuel with
    | zero => exact ⟨fun i e => (by cases e), fun d n e => (by cases e)⟩
    | succ fuel =>
      rw [reach] at hb
      match hm : inode fs s m with
      | none => rw [hm] at hb; cases hb
      | some x =>
        rw [hm] at hb
        replace hb : Spec.reach fs x base = some a := hb
        obtain ⟨up, es, hs⟩ := entry_dir hm
        have h1 : m ≠ dot := fun e => by rw [e, (t.dots s).1] at hm; cases hm
        have h2 : m ≠ dotdot := fun e => by rw [e, (t.dots s).2] at hm; cases hm
        have hx : IsDir fs x := by
          cases base with
          | nil => cases hb; exact hd
          | cons m' base =>
            rw [reach] at hb
            match hm' : inode fs x m' with
            | none => rw [hm'] at hb; cases hb
            | some y => exact entry_dir hm'
        obtain ⟨u', es', hx'⟩ := hx
        rw [List.cons_append, walk, hs]
        simp only [if_neg h1, if_neg h2]
        rw [entry_of hs] at hm
        rw [hm]
        simp only [hx']
        exact ih hb fuel

/-- The start of the paths. -/
structure Base (S : Nat → Prop) (fs : FS) (base : List Name) (a : Nat) : Prop where
  tree : Tree fs
  shut : Shut S fs
  reach : Spec.reach fs 0 base = some a
  mem : S a
  dir : IsDir fs a

theorem resolve_below {fs : FS} {base : List Name} {a : Nat} (b : Base S fs base a) {p : Path}
    (hp : Below fs base a p) {f : Bool} :
    (∀ i, resolve fs f p = .found i → S i) ∧ ∀ d n, resolve fs f p = .absent d n → S d := by
  obtain ⟨q, hq, hdd, hcase⟩ := hp
  unfold resolve
  split
  · exact ⟨fun i e => (by cases e), fun d n e => (by cases e)⟩
  · rcases hcase with ⟨h1, h2⟩ | ⟨h1, h2, h3⟩
    · rw [h1, h2]
      exact walk_into b.tree b.shut b.reach b.mem b.dir hdd _
    · rw [h1, h3, h2]
      exact walk_inside b.shut _ b.mem hdd

theorem parent_below {fs : FS} {base : List Name} {a : Nat} (b : Base S fs base a) {p : Path}
    (hp : Below fs base a p) {d up : Nat} {es : List (Name × Nat)} {n : Name} (h : parent fs p = .ok (d, up, es, n)) :
    S d := by
  obtain ⟨q, hq, hdd, hcase⟩ := hp
  obtain ⟨-, -, -, -, hw⟩ := parent_ok h
  have hdd' : dotdot ∉ q.dropLast := fun e => hdd (List.dropLast_subset _ e)
  rcases hcase with ⟨h1, h2⟩ | ⟨h1, h2, h3⟩
  · rw [h1, h2, List.dropLast_append_of_ne_nil hq] at hw
    exact (walk_into b.tree b.shut b.reach b.mem b.dir hdd' _).1 d hw
  · rw [h1, h3, h2] at hw
    exact (walk_inside b.shut _ b.mem hdd').1 d hw

theorem lookup_keep {es : List (Name × Nat)} {n m : Name} {k : Nat}
    (h : (es.filter fun e => e.1 ≠ n).lookup m = some k) : es.lookup m = some k := by
  rw [lookup_filter] at h
  split at h
  · cases h
  · exact h

theorem run_eff {fs : FS} {base : List Name} {a : Nat} (b : Base S fs base a) (hnew : ∀ k, fs.nodes.length ≤ k → S k)
    (op : Op) (hp : ∀ p ∈ op.paths, Below fs base a p) : Eff S fs (op.run fs) := by
  have idle : Eff S fs fs := .refl b.shut
  have ent : ∀ {d up : Nat} {es : List (Name × Nat)}, S d → fs.nodes[d]? = some (.dir up es) →
      ∀ n k, es.lookup n = some k → S k := fun hs hd n k hl => b.shut.closed _ n k hs (by rw [entry_of hd, hl])
  have rem : ∀ (f : Option Errno) (p : Path) (fs' : FS), Below fs base a p → remove f fs p = .ok fs' → Eff S fs fs' := by
    intro f p fs' hp h
    obtain ⟨-, d, up, es, n, i, hpar, hl, -, rfl⟩ := remove_spec h
    have hs := parent_below b hp hpar
    have hd := (parent_ok hpar).1
    exact set_dir b.shut hs hd fun m k hm => ent hs hd m k (lookup_keep hm)
  cases op with
  | createDir f p =>
    simp only [Op.run, Fs.createDir, mkdir]
    cases f with
    | some e => exact idle
    | none =>
      simp only
      match hpar : parent fs p with
      | .error e => cases e <;> exact idle
      | .ok (d, up, es, n) =>
        simp only
        match hl : es.lookup n with
        | some j => exact idle
        | none =>
          exact add_node b.shut (parent_below b (hp p (by simp [Op.paths])) hpar) (parent_ok hpar).1 (hnew _ (Nat.le_refl _))
            (Or.inr ⟨d, rfl⟩)
  | write cf wf p data =>
    have hb := resolve_below b (hp p (by simp [Op.paths])) (f := true)
    have hcr : ∀ i fs1, create cf fs p = .ok (i, fs1) → S i ∧ (∃ c, fs1.nodes[i]? = some (.file c)) ∧ Eff S fs fs1 := by
      intro i fs1 h
      have hc := (create_spec h).2.1
      refine ⟨?_, ?_⟩
      · rcases (create_spec h).2.2.2.2 with h1 | ⟨h1, -⟩
        · exact hb.1 i h1
        · exact hnew i (by omega)
      · refine ⟨⟨_, hc.2⟩, ?_⟩
        unfold create at h
        cases cf with
        | some e => cases h
        | none =>
          simp only at h
          match hr : resolve fs true p with
          | .fail e => rw [hr] at h; cases h
          | .found j =>
            rw [hr] at h
            simp only at h
            match hj : fs.nodes[j]? with
            | some (.dir a b) => rw [hj] at h; cases h
            | some (.link t) => rw [hj] at h; cases h
            | none => rw [hj] at h; cases h
            | some (.file d) =>
              rw [hj] at h
              cases h
              exact set_file b.shut (hb.1 _ hr) hj
          | .absent d n =>
            rw [hr] at h
            simp only at h
            match hd : fs.nodes[d]? with
            | some (.file d) => rw [hd] at h; cases h
            | some (.link t) => rw [hd] at h; cases h
            | none => rw [hd] at h; cases h
            | some (.dir up es) =>
              rw [hd] at h
              cases h
              exact add_node b.shut (hb.2 d n hr) hd (hnew _ (Nat.le_refl _)) (Or.inl ⟨[], rfl⟩)
    simp only [Op.run, Fs.write]
    match hc : create cf fs p with
    | .error e => exact idle
    | .ok (i, fs1) =>
      obtain ⟨hi, ⟨c, h1⟩, h2⟩ := hcr i fs1 hc
      match wf with
      | none => exact h2.trans (set_file h2.shut hi h1)
      | some (k, e) => exact h2.trans (set_file h2.shut hi h1)
  | copy f p p' =>
    simp only [Op.run, Fs.copy]
    match hm : link f fs p p' with
    | .error e => exact idle
    | .ok fs' =>
      obtain ⟨-, i, d, up, es, n, hr, hpar, hl, -, rfl⟩ := link_spec hm
      have hs := parent_below b (hp p' (by simp [Op.paths])) hpar
      have hd := (parent_ok hpar).1
      have hi := (resolve_below b (hp p (by simp [Op.paths]))).1 i hr
      refine set_dir b.shut hs hd fun m k hk => ?_
      rw [lookup_concat] at hk
      cases hl' : es.lookup m with
      | some j => rw [hl'] at hk; cases hk; exact ent hs hd m k hl'
      | none =>
        rw [hl'] at hk
        by_cases hmn : m = n
        · rw [if_pos hmn] at hk; cases hk; exact hi
        · rw [if_neg hmn] at hk; cases hk
  | removeFile f p =>
    simp only [Op.run, Fs.removeFile]
    match hm : remove f fs p with
    | .error e => exact idle
    | .ok fs' => exact rem f p fs' (hp p (by simp [Op.paths])) hm
  | removeDir f p =>
    simp only [Op.run, Fs.removeDir]
    match hm : remove f fs p with
    | .error e => exact idle
    | .ok fs' => exact rem f p fs' (hp p (by simp [Op.paths])) hm
  | rename f p p' =>
    simp only [Op.run, Fs.rename]
    match hr : Os.rename f fs p p' with
    | .error e => exact idle
    | .ok fs' =>
      obtain ⟨-, hsys⟩ := rename_sys hr
      obtain ⟨d, up, es, n, d', up', es', n', i, hpa, hpb, hl, hcase⟩ := sysRename_spec hsys
      rcases hcase with ⟨_, rfl⟩ | ⟨hne, rfl⟩
      · exact idle
      · have hs := parent_below b (hp p (by simp [Op.paths])) hpa
        have hs' := parent_below b (hp p' (by simp [Op.paths])) hpb
        have hd := (parent_ok hpa).1
        have hi : S i := ent hs hd n i hl
        have e1 : Eff S fs (dropEntry fs d n) := by
          unfold dropEntry
          rw [hd]
          exact set_dir b.shut hs hd fun m k hm => ent hs hd m k (lookup_keep hm)
        have e2 : Eff S (dropEntry fs d n) (setEntry (dropEntry fs d n) d' n' i) := by
          unfold setEntry
          match h2 : (dropEntry fs d n).nodes[d']? with
          | some (.dir up2 es2) =>
            refine set_dir e1.shut hs' h2 fun m k hm => ?_
            rw [lookup_set] at hm
            split at hm
            · cases hm; exact hi
            · exact e1.shut.closed d' m k hs' (by rw [entry_of h2, hm])
          | some (.file c) => exact .refl e1.shut
          | some (.link t) => exact .refl e1.shut
          | none => exact .refl e1.shut
        have e3 : Eff S (setEntry (dropEntry fs d n) d' n' i) (reparent (setEntry (dropEntry fs d n) d' n' i) i d') := by
          unfold reparent
          match h3 : (setEntry (dropEntry fs d n) d' n' i).nodes[i]? with
          | some (.dir up3 es3) =>
            exact set_dir e2.shut hi h3 fun m k hm => e2.shut.closed i m k hi (by rw [entry_of h3, hm])
          | some (.file c) => exact .refl e2.shut
          | some (.link t) => exact .refl e2.shut
          | none => exact .refl e2.shut
        exact (e1.trans e2).trans e3

/-- A path whose nodes before the last are outside. -/
theorem reach_same {fs fs' : FS} (hs : ∀ k, ¬ S k → fs'.nodes[k]? = fs.nodes[k]?) {s : Nat} {r : List Name}
    (h : ∀ r1 x, r1 <+: r → r1 ≠ r → reach fs s r1 = some x → ¬ S x) : reach fs' s r = reach fs s r := by
  induction r generalizing s with
  | nil => rfl
  | cons m r ih =>
    have h0 : ¬ S s := h [] s (List.nil_prefix) (by simp) rfl
    have hi : inode fs' s m = inode fs s m := by unfold inode; rw [hs s h0]
    rw [reach, reach, hi]
    match hm : inode fs s m with
    | none => rfl
    | some x =>
      exact ih fun r1 y hr hne hy => h (m :: r1) y (List.cons_prefix_cons.2 ⟨rfl, hr⟩)
        (fun e => hne (by injection e)) (by rw [reach, hm]; exact hy)

theorem reach_cons {fs : FS} {s x : Nat} {q : List Name} {n : Name} (h : reach fs s q = some x) (k : Nat)
    (hk : inode fs x n = some k) : reach fs s (q ++ [n]) = some k := reach_snoc.2 ⟨x, h, hk⟩

theorem runAll_eff {fs : FS} {base : List Name} {a : Nat} (b : Base S fs base a)
    (hnew : ∀ k, fs.nodes.length ≤ k → S k) (hout : ∀ r x, r <+: base → r ≠ base → reach fs 0 r = some x → ¬ S x)
    (ops : List Op) (hp : ∀ op ∈ ops, ∀ p ∈ op.paths, Below fs base a p) : Eff S fs (runAll fs ops) := by
  induction ops generalizing fs with
  | nil => exact .refl b.shut
  | cons op ops ih =>
    have e := run_eff b hnew op (hp op List.mem_cons_self)
    refine e.trans (ih (fs := op.run fs) ⟨(Op.run_tree b.tree op).1, e.shut, ?_, b.mem, ?_⟩ ?_ ?_ ?_)
    · rw [reach_same e.same hout]; exact b.reach
    · obtain ⟨u, es, hd⟩ := b.dir
      exact (e.dirs a (lt_of_node hd)).2 ⟨u, es, hd⟩
    · exact fun k hk => hnew k (Nat.le_trans e.length hk)
    · intro r x hr hne hx
      rw [reach_same (r := r) e.same] at hx
      · exact hout r x hr hne hx
      · intro r1 y h1 h2 hy
        refine hout r1 y (h1.trans hr) ?_ hy
        intro e
        apply h2
        exact List.IsPrefix.eq_of_length h1 (by
          have := hr.length_le; have := h1.length_le; rw [e] at *; omega)
    · intro o ho p hpp
      obtain ⟨q, h1, h2, h3⟩ := hp o (List.mem_cons_of_mem _ ho) p hpp
      exact ⟨q, h1, h2, by rw [e.cwd]; exact h3⟩

/-- What is in the directory or below it, and all that is new. -/
def inside (fs : FS) (a k : Nat) : Prop := (∃ q, reach fs a q = some k) ∨ fs.nodes.length ≤ k

theorem base_of {fs : FS} (t : Tree fs) {base : List Name} {a : Nat} (ha : reach fs 0 base = some a) (hd : IsDir fs a)
    (hl : ∀ q k p, reach fs a q = some k → fs.nodes[k]? ≠ some (.link p)) :
    Base (inside fs a) fs base a ∧ ∀ r x, r <+: base → r ≠ base → reach fs 0 r = some x → ¬ inside fs a x := by
  refine ⟨⟨t, ⟨?_, ?_⟩, ha, Or.inl ⟨[], rfl⟩, hd⟩, ?_⟩
  · rintro i n k (⟨q, hq⟩ | hi) hk
    · exact Or.inl ⟨q ++ [n], reach_cons hq k hk⟩
    · obtain ⟨u, es, h⟩ := entry_dir hk
      exact absurd (lt_of_node h) (by omega)
  · rintro i p (⟨q, hq⟩ | hi) h
    · exact hl q i p hq h
    · exact absurd (lt_of_node h) (by omega)
  · rintro r x ⟨q, rfl⟩ hne hx hin
    have hq : q ≠ [] := fun e => hne (by simp [e])
    rw [reach_append, hx] at ha
    replace ha : reach fs x q = some a := ha
    have hxd : IsDir fs x := by
      cases q with
      | nil => exact absurd rfl hq
      | cons m q =>
        rw [reach] at ha
        match hm : inode fs x m with
        | none => rw [hm] at ha; cases ha
        | some y => exact entry_dir hm
    rcases hin with ⟨q', hq'⟩ | hge
    · have : reach fs 0 (r ++ q ++ q') = some x := by
        rw [reach_append, reach_append, hx]
        simp only [ha]
        exact hq'
      have := t.onePath hx this hxd
      have := congrArg List.length this
      simp only [List.length_append] at this
      have : q.length = 0 := by omega
      exact hq (List.length_eq_zero_iff.1 this)
    · obtain ⟨u, es, h⟩ := hxd
      exact absurd (lt_of_node h) (by omega)

/-- A path that ends inside: the part of it until it comes in. -/
theorem comes_in (S : Nat → Prop) {fs : FS} {s k : Nat} {r : List Name} (h : reach fs s r = some k) (hk : S k) :
    ∃ r1 r2 m, r = r1 ++ r2 ∧ reach fs s r1 = some m ∧ S m ∧ reach fs m r2 = some k ∧
      ∀ r0 x, r0 <+: r1 → r0 ≠ r1 → reach fs s r0 = some x → ¬ S x := by
  induction r generalizing s with
  | nil =>
    cases h
    exact ⟨[], [], _, rfl, rfl, hk, rfl, fun r0 x h1 h2 => absurd (List.prefix_nil.1 h1) h2⟩
  | cons n r ih =>
    by_cases hs : S s
    · exact ⟨[], n :: r, s, rfl, rfl, hs, h, fun r0 x h1 h2 => absurd (List.prefix_nil.1 h1) h2⟩
    · rw [reach] at h
      match hm : inode fs s n with
      | none => rw [hm] at h; cases h
      | some x =>
        rw [hm] at h
        obtain ⟨r1, r2, m, e, h1, h2, h3, h4⟩ := ih h
        refine ⟨n :: r1, r2, m, by rw [e]; rfl, by rw [reach, hm]; exact h1, h2, h3, ?_⟩
        intro r0 y hp hne hy
        cases r0 with
        | nil => cases hy; exact hs
        | cons n' r0 =>
          obtain ⟨rfl, hp'⟩ := List.cons_prefix_cons.1 hp
          rw [reach, hm] at hy
          exact h4 r0 y hp' (fun e => hne (by rw [e])) hy
end Confine
end Fs

open Fs.Confine in
/-- C173: let `/base` be a directory with no symbolic links in it or below it, and let a program make any sequence of
calls whose paths all lead below `/base`, without `..`, under any failures.  Then no file, directory or link outside is
changed: it has the content, the names and the `..` it had.  What is outside is found under the same paths and reads
the same, and what the program makes is found under `/base` only. -/
theorem C173_confined {fs : FS} (t : Tree fs) {base : List Name} {a : Nat} (ha : reach fs 0 base = some a)
    (hd : IsDir fs a) (hl : ∀ q k p, reach fs a q = some k → fs.nodes[k]? ≠ some (.link p)) (ops : List Op)
    (ho : ∀ op ∈ ops, ∀ p ∈ op.paths, Below fs base a p) :
    (∀ k, k < fs.nodes.length → (∀ q, reach fs a q ≠ some k) → (runAll fs ops).nodes[k]? = fs.nodes[k]?) ∧
    (∀ r k, reach fs 0 r = some k → (∀ q, reach fs a q ≠ some k) → reach (runAll fs ops) 0 r = some k ∧
      ∀ c, fs.nodes[k]? = some (.file c) →
        ∀ f g, Fs.read f g (runAll fs ops) ⟨true, r⟩ = Fs.read f g fs ⟨true, r⟩) ∧
    (∀ r k, reach (runAll fs ops) 0 r = some k → fs.nodes.length ≤ k → base <+: r) ∧
    reach (runAll fs ops) 0 base = some a ∧ IsDir (runAll fs ops) a := by
  obtain ⟨b, hout⟩ := base_of t ha hd hl
  have e := runAll_eff b (fun k hk => Or.inr hk) hout ops ho
  have t' := runAll_tree t ops
  have hsame : ∀ k, k < fs.nodes.length → (∀ q, reach fs a q ≠ some k) → ¬ inside fs a k := by
    rintro k hk hq (⟨q, h⟩ | h)
    · exact hq q h
    · omega
  refine ⟨fun k hk hq => e.same k (hsame k hk hq), ?_, ?_, ?_, ?_⟩
  · intro r k hr hq
    have hk : k < fs.nodes.length := by
      rcases snoc_cases r with rfl | ⟨r', n, rfl⟩
      · cases hr; obtain ⟨es, h0⟩ := t.top; exact lt_of_node h0
      · obtain ⟨x, _, hx⟩ := reach_snoc.1 hr; exact t.range x n k hx
    have hr' : reach (runAll fs ops) 0 r = some k := by
      rw [reach_same e.same]
      · exact hr
      · rintro r1 x ⟨r2, rfl⟩ hne hx hin
        rw [reach_append, hx] at hr
        rcases hin with ⟨q, h⟩ | h
        · exact hq (q ++ r2) (by rw [reach_append, h]; exact hr)
        · rcases snoc_cases r1 with rfl | ⟨r', n, rfl⟩
          · cases hx; obtain ⟨es, h0⟩ := t.top; exact absurd (lt_of_node h0) (by omega)
          · obtain ⟨y, _, hy⟩ := reach_snoc.1 hx; exact absurd (t.range y n x hy) (by omega)
    refine ⟨hr', fun c hc f g => ?_⟩
    have hc' : (runAll fs ops).nodes[k]? = some (.file c) := (e.same k (hsame k hk hq)).trans hc
    have h1 := walk_reach t (f := true) hr (fun _ p h => by rw [hc] at h; cases h) (fs.limit + 1)
    have h2 := walk_reach t' (f := true) hr' (fun _ p h => by rw [hc'] at h; cases h) (fs.limit + 1)
    have hres : resolve (runAll fs ops) true ⟨true, r⟩ = resolve fs true ⟨true, r⟩ := by
      unfold resolve
      simp only [Bool.true_eq_false, false_and, if_false, if_true]
      rw [e.limit, h1, h2]
    unfold Fs.read open_
    cases f with
    | some e => rfl
    | none =>
      simp only
      rw [hres]
      unfold resolve
      simp only [Bool.true_eq_false, false_and, if_false, if_true]
      rw [h1]
      by_cases hlen : r.length ≤ fs.limit + 1
      · simp only [if_pos hlen, fileRead, size, hc, hc']
      · simp only [if_neg hlen]
  · intro r k hr hk
    obtain ⟨r1, r2, m, rfl, h1, h2, h3, h4⟩ := comes_in (inside fs a) hr (Or.inr hk)
    have hback : reach fs 0 r1 = some m := by
      rw [← h1]
      exact (reach_same (S := inside fs a) (fun k hk => (e.same k hk).symm) h4)
    have hm : m < fs.nodes.length := by
      rcases snoc_cases r1 with rfl | ⟨r', n, rfl⟩
      · cases hback; obtain ⟨es, h0⟩ := t.top; exact lt_of_node h0
      · obtain ⟨x, _, hx⟩ := reach_snoc.1 hback; exact t.range x n m hx
    have hmd : IsDir (runAll fs ops) m := by
      cases r2 with
      | nil => cases h3; exact absurd hm (by omega)
      | cons n r2 =>
        rw [reach] at h3
        match hn : inode (runAll fs ops) m n with
        | none => rw [hn] at h3; cases h3
        | some y => exact entry_dir hn
    have hmd' := (e.dirs m hm).1 hmd
    rcases h2 with ⟨q, hq⟩ | h2
    · have : r1 = base ++ q := t.onePath hback (by rw [reach_append, ha]; exact hq) hmd'
      rw [this, List.append_assoc]
      exact List.prefix_append _ _
    · omega
  · rw [reach_same e.same hout]; exact ha
  · obtain ⟨u, es, h⟩ := hd
    exact (e.dirs a (lt_of_node h)).2 ⟨u, es, h⟩

/-- `/d` with the file `x` and the directory `s`, `/e` with the file `y`. -/
def Fs.twoDirs : FS := runAll Fs.blank (Fs.grown ++ [.write none none ⟨true, [[101], [121]]⟩ [9]])
/-- A program that works in `/d` only: it fills, links, moves and removes, and a write fails. -/
def Fs.inD : List Op :=
  [.write none none ⟨true, [[100]] ++ [[110]]⟩ [1, 2], .copy none ⟨true, [[100]] ++ [[110]]⟩ ⟨true, [[100]] ++ [[115], [109]]⟩,
   .createDir none ⟨true, [[100]] ++ [[116]]⟩, .rename none ⟨true, [[100]] ++ [[115]]⟩ ⟨true, [[100]] ++ [[116], [115]]⟩,
   .removeFile none ⟨true, [[100]] ++ [[120]]⟩, .write none (some (1, .EIO)) ⟨true, [[100]] ++ [[110]]⟩ [5, 6]]

theorem Fs.twoDirs_hyps : Tree Fs.twoDirs ∧ reach Fs.twoDirs 0 [[100]] = some 1 ∧ IsDir Fs.twoDirs 1 ∧
    (∀ q k p, reach Fs.twoDirs 1 q = some k → Fs.twoDirs.nodes[k]? ≠ some (.link p)) ∧
    ∀ op ∈ Fs.inD, ∀ p ∈ op.paths, Below Fs.twoDirs [[100]] 1 p := by
  refine ⟨runAll_tree Fs.blank_tree _, by decide +kernel, ⟨0, _, (by decide +kernel : Fs.twoDirs.nodes[1]? =
    some (.dir 0 [([120], 2), ([115], 3)]))⟩, ?_, ?_⟩
  · intro q k p hq h
    have hk := lt_of_node h
    have hn : Fs.twoDirs.nodes.length = 6 := by decide +kernel
    have h6 : ∀ k < 6, ∀ p, Fs.twoDirs.nodes[k]? ≠ some (.link p) := by
      intro k hk p
      have : (match Fs.twoDirs.nodes[k]? with | some (.link _) => true | _ => false) = false := by
        revert k; decide +kernel
      intro e; rw [e] at this; cases this
    exact h6 k (by omega) p h
  · have : ∀ q, q ≠ [] → dotdot ∉ q → Below Fs.twoDirs [[100]] 1 ⟨true, [[100]] ++ q⟩ :=
      fun q h1 h2 => ⟨q, h1, h2, Or.inl ⟨rfl, rfl⟩⟩
    intro op ho p hp
    simp only [Fs.inD, List.mem_cons, List.not_mem_nil, or_false] at ho
    rcases ho with rfl | rfl | rfl | rfl | rfl | rfl <;> simp only [Op.paths, List.mem_cons, List.not_mem_nil, or_false] at hp
    all_goals first
      | (rcases hp with rfl | rfl <;> exact this _ (by decide) (by decide))
      | (rw [hp]; exact this _ (by decide) (by decide))

/- The calls succeed but for the write that fails; `/d` has changed and `/e/y` has not. -/
example : reach Fs.twoDirs 0 [[101], [121]] = some 5 ∧ (∀ q, reach Fs.twoDirs 1 q ≠ some 5) ∧
    (okCalls Fs.twoDirs Fs.inD).length = 5 ∧
    Fs.read none none (runAll Fs.twoDirs Fs.inD) ⟨true, [[101], [121]]⟩ = Res.mkOk [9] ∧
    Fs.read none none (runAll Fs.twoDirs Fs.inD) ⟨true, [[100], [116], [115], [109]]⟩ = Res.mkOk [5] ∧
    Fs.read none none (runAll Fs.twoDirs Fs.inD) ⟨true, [[100], [120]]⟩ = Res.mkErr (some .ENOENT) := by
  refine ⟨by decide +kernel, ?_, by decide +kernel, by decide +kernel, by decide +kernel, by decide +kernel⟩
  have n1 : Fs.twoDirs.nodes[1]? = some (.dir 0 [([120], 2), ([115], 3)]) := by decide +kernel
  have n2 : Fs.twoDirs.nodes[2]? = some (.file [7]) := by decide +kernel
  have n3 : Fs.twoDirs.nodes[3]? = some (.dir 1 []) := by decide +kernel
  intro q hq
  cases q with
  | nil => cases hq
  | cons n q =>
    rw [reach, entry_of n1] at hq
    simp only [List.lookup] at hq
    repeat' split at hq
    all_goals first
      | (cases hq; done)
      | skip
    all_goals rename_i x h
    all_goals
      repeat' split at h
      all_goals cases h
      all_goals
        cases q with
        | nil => cases hq
        | cons n q => simp [reach, inode, n2, n3] at hq

/- `..` leads outside, and so does a symbolic link below the directory. -/
example : Fs.read none none ((Op.write none none ⟨true, [[100], dotdot, [101], [121]]⟩ [0]).run Fs.twoDirs) ⟨true, [[101], [121]]⟩ =
    Res.mkOk [0] := by decide +kernel
example : Fs.read none none ((Op.write none none ⟨true, [[100], [108], [121]]⟩ [0]).run
    (addNode Fs.twoDirs 1 0 [([120], 2), ([115], 3)] [108] (.link ⟨true, [[101]]⟩))) ⟨true, [[101], [121]]⟩ = Res.mkOk [0] := by
  decide +kernel
end Gost
