import Verif.Model.Fs
/-
Lemmas about path resolution.
-/
namespace Gost.Os

/-- `fs'` has the directories and links of `fs`, with at least the entries that lead to inodes in `keep`. -/
structure Ext (keep : Nat → Prop) (fs fs' : FS) : Prop where
  dirs : ∀ (k up : Nat) (es : List (Name × Nat)), fs.nodes[k]? = some (.dir up es) → ∃ es' : List (Name × Nat), fs'.nodes[k]? = some (.dir up es') ∧
    ∀ (n : Name) (i : Nat), es.lookup n = some i → keep i → es'.lookup n = some i
  links : ∀ (k : Nat) (t : Path), fs.nodes[k]? = some (.link t) → fs'.nodes[k]? = some (.link t)
  nolinks : ∀ (k : Nat) (t : Path), fs'.nodes[k]? = some (.link t) → fs.nodes[k]? = some (.link t)
  cwd : fs'.cwd = fs.cwd
  limit : fs'.limit = fs.limit

/-- Directories and links. -/
def FS.passable (fs : FS) (k : Nat) : Prop := (∃ up es, fs.nodes[k]? = some (.dir up es)) ∨ ∃ t, fs.nodes[k]? = some (.link t)

theorem walk_nil (fs : FS) (f : Bool) (fuel cur : Nat) : walk fs f fuel cur [] = .found cur := by
  cases fuel <;> rfl

/-- What comes out of a directory that is passed is passable, or it is the end. -/
theorem walk_through {fs : FS} {f : Bool} {fuel k i : Nat} {rest : List Name}
    (h : walk fs f fuel k rest = .found i) : k = i ∨ ∃ up es, fs.nodes[k]? = some (.dir up es) := by
  cases rest with
  | nil => rw [walk_nil] at h; cases h; exact .inl rfl
  | cons n rest =>
    cases fuel with
    | zero => cases h
    | succ fuel =>
      rw [walk] at h
      match hk : fs.nodes[k]? with
      | some (.dir up es) => exact .inr ⟨up, es, rfl⟩
      | some (.file d) => rw [hk] at h; cases h
      | some (.link t) => rw [hk] at h; cases h
      | none => rw [hk] at h; cases h

theorem walk_ext {keep : Nat → Prop} {fs fs' : FS} (x : Ext keep fs fs') (hk : ∀ k, fs.passable k → keep k)
    {f : Bool} {fuel cur i : Nat} {ns : List Name} (hi : keep i) (h : walk fs f fuel cur ns = .found i) :
    walk fs' f fuel cur ns = .found i := by
  induction fuel generalizing cur ns with
  | zero =>
    cases ns with
    | nil => exact h
    | cons n rest => cases h
  | succ fuel ih =>
    cases ns with
    | nil => exact h
    | cons n rest =>
      rw [walk] at h ⊢
      match hc : fs.nodes[cur]? with
      | some (.file d) => rw [hc] at h; cases h
      | some (.link t) => rw [hc] at h; cases h
      | none => rw [hc] at h; cases h
      | some (.dir up es) =>
        obtain ⟨es', hc', hes⟩ := x.dirs cur up es hc
        rw [hc] at h
        rw [hc']
        simp only at h ⊢
        by_cases h1 : n = dot
        · rw [if_pos h1] at h ⊢; exact ih h
        · rw [if_neg h1] at h ⊢
          by_cases h2 : n = dotdot
          · rw [if_pos h2] at h ⊢; exact ih h
          · rw [if_neg h2] at h ⊢
            match hl : es.lookup n with
            | none =>
              rw [hl] at h
              simp only at h
              split at h <;> cases h
            | some k =>
              rw [hl] at h
              simp only at h
              match hn : fs.nodes[k]? with
              | some (.link t) =>
                rw [hn] at h
                rw [hes n k hl (hk k (.inr ⟨t, hn⟩))]
                simp only [x.links k t hn] at h ⊢
                split
                · rename_i hc2; rw [if_pos hc2] at h; exact h
                · rename_i hc2; rw [if_neg hc2] at h; exact ih h
              | some (.dir up' es'') =>
                rw [hn] at h
                simp only at h
                rw [hes n k hl (hk k (.inl ⟨up', es'', hn⟩))]
                obtain ⟨e3, hn', _⟩ := x.dirs k up' es'' hn
                simp only [hn']
                exact ih h
              | some (.file d) =>
                rw [hn] at h
                simp only at h
                rcases walk_through h with rfl | ⟨up', es'', he⟩
                · rw [hes n k hl hi]
                  simp only
                  match hn' : fs'.nodes[k]? with
                  | some (.link t) => rw [x.nolinks k t hn'] at hn; cases hn
                  | some (.dir up' es'') => exact ih h
                  | some (.file d) => exact ih h
                  | none => exact ih h
                · rw [hn] at he; cases he
              | none =>
                rw [hn] at h
                simp only at h
                rcases walk_through h with rfl | ⟨up', es'', he⟩
                · rw [hes n k hl hi]
                  simp only
                  match hn' : fs'.nodes[k]? with
                  | some (.link t) => rw [x.nolinks k t hn'] at hn; cases hn
                  | some (.dir up' es'') => exact ih h
                  | some (.file d) => exact ih h
                  | none => exact ih h
                · rw [hn] at he; cases he

theorem resolve_ext {keep : Nat → Prop} {fs fs' : FS} (x : Ext keep fs fs') (hk : ∀ k, fs.passable k → keep k)
    {f : Bool} {p : Path} {i : Nat} (hi : keep i) (h : resolve fs f p = .found i) : resolve fs' f p = .found i := by
  unfold resolve at h ⊢
  rw [x.cwd, x.limit]
  by_cases he : p.abs = false ∧ p.names = []
  · rw [if_pos he] at h; cases h
  · rw [if_neg he] at h ⊢
    exact walk_ext x hk hi h

/-- Where a missing file would have to be. -/
theorem walk_absent {fs : FS} {f : Bool} {fuel cur d : Nat} {ns : List Name} {n : Name}
    (h : walk fs f fuel cur ns = .absent d n) : (∃ up es, fs.nodes[d]? = some (.dir up es) ∧ es.lookup n = none) ∧
      n ≠ dot ∧ n ≠ dotdot := by
  induction fuel generalizing cur ns with
  | zero =>
    cases ns with
    | nil => cases h
    | cons m rest => cases h
  | succ fuel ih =>
    cases ns with
    | nil => cases h
    | cons m rest =>
      rw [walk] at h
      match hc : fs.nodes[cur]? with
      | some (.file d) => rw [hc] at h; cases h
      | some (.link t) => rw [hc] at h; cases h
      | none => rw [hc] at h; cases h
      | some (.dir up es) =>
        rw [hc] at h
        simp only at h
        by_cases h1 : m = dot
        · rw [if_pos h1] at h; exact ih h
        · rw [if_neg h1] at h
          by_cases h2 : m = dotdot
          · rw [if_pos h2] at h; exact ih h
          · rw [if_neg h2] at h
            match hl : es.lookup m with
            | none =>
              rw [hl] at h
              simp only at h
              split at h
              · cases h; exact ⟨⟨up, es, hc, hl⟩, h1, h2⟩
              · cases h
            | some k =>
              rw [hl] at h
              simp only at h
              split at h
              · split at h
                · cases h
                · exact ih h
              · exact ih h

theorem lookup_concat {es : List (Name × Nat)} {n m : Name} {j : Nat} :
    (es ++ [(n, j)]).lookup m = (es.lookup m).or (if m = n then some j else none) := by
  induction es with
  | nil =>
    by_cases h : m = n
    · subst h; simp [List.lookup]
    · have : (m == n) = false := by simpa using h
      simp [List.lookup, this, h]
  | cons e es ih =>
    obtain ⟨a, b⟩ := e
    cases hab : m == a with
    | true => simp [List.lookup, hab]
    | false => simp only [List.cons_append, List.lookup, hab, ih]

theorem lookup_filter {es : List (Name × Nat)} {n m : Name} :
    (es.filter fun e => e.1 ≠ n).lookup m = if m = n then none else es.lookup m := by
  induction es with
  | nil => simp [List.lookup]
  | cons e es ih =>
    obtain ⟨a, b⟩ := e
    by_cases ha : a = n
    · subst ha
      rw [List.filter_cons_of_neg (by simp), ih]
      by_cases hm : m = a
      · simp [hm]
      · have : (m == a) = false := by simpa using hm
        simp [hm, List.lookup, this]
    · rw [List.filter_cons_of_pos (by simpa using ha)]
      cases hab : m == a with
      | true =>
        have : m = a := by simpa using hab
        subst this
        simp [List.lookup, ha]
      | false => simp only [List.lookup, hab, ih]

/-- A node is added under a name: the path now leads to it. -/
theorem walk_new {fs fs' : FS} {d up j : Nat} {es : List (Name × Nat)} {n : Name}
    (hd : fs.nodes[d]? = some (.dir up es)) (hn : es.lookup n = none)
    (hd' : fs'.nodes[d]? = some (.dir up (es ++ [(n, j)])))
    (hj : ∀ t, fs'.nodes[j]? ≠ some (.link t))
    (hother : ∀ (k : Nat), k ≠ d → ∀ node, fs.nodes[k]? = some node → fs'.nodes[k]? = some node)
    {f : Bool} {fuel cur : Nat} {ns : List Name} (h : walk fs f fuel cur ns = .absent d n) :
    walk fs' f fuel cur ns = .found j := by
  induction fuel generalizing cur ns with
  | zero =>
    cases ns with
    | nil => cases h
    | cons m rest => cases h
  | succ fuel ih =>
    cases ns with
    | nil => cases h
    | cons m rest =>
      rw [walk] at h ⊢
      match hc : fs.nodes[cur]? with
      | some (.file d) => rw [hc] at h; cases h
      | some (.link t) => rw [hc] at h; cases h
      | none => rw [hc] at h; cases h
      | some (.dir up0 es0) =>
        -- the directory in the new file system
        have hdir : ∃ es1, fs'.nodes[cur]? = some (.dir up0 es1) ∧
            (∀ m k, es0.lookup m = some k → es1.lookup m = some k) ∧
            (cur = d → es1.lookup n = some j) := by
          by_cases hcd : cur = d
          · subst hcd
            rw [hd] at hc
            cases hc
            refine ⟨_, hd', fun m k hm => ?_, fun _ => ?_⟩
            · rw [lookup_concat, hm]; rfl
            · rw [lookup_concat, hn]; simp
          · exact ⟨es0, hother cur hcd _ hc, fun _ _ h => h, fun e => absurd e hcd⟩
        obtain ⟨es1, hc1, hkeep, hnew⟩ := hdir
        rw [hc] at h
        rw [hc1]
        simp only at h ⊢
        by_cases h1 : m = dot
        · rw [if_pos h1] at h ⊢; exact ih h
        · rw [if_neg h1] at h ⊢
          by_cases h2 : m = dotdot
          · rw [if_pos h2] at h ⊢; exact ih h
          · rw [if_neg h2] at h ⊢
            match hl : es0.lookup m with
            | none =>
              rw [hl] at h
              simp only at h
              by_cases hr : rest = []
              · rw [if_pos hr] at h
                cases h
                rw [hnew rfl, hr]
                simp only
                match hnj : fs'.nodes[j]? with
                | some (.link t) => exact absurd hnj (hj t)
                | some (.dir a b) => exact walk_nil ..
                | some (.file b) => exact walk_nil ..
                | none => exact walk_nil ..
              · rw [if_neg hr] at h; cases h
            | some k =>
              rw [hl] at h
              rw [hkeep m k hl]
              simp only at h ⊢
              match hk : fs.nodes[k]? with
              | some (.link t) =>
                rw [hk] at h
                have hkd : k ≠ d := by rintro rfl; rw [hd] at hk; cases hk
                rw [hother k hkd _ hk]
                simp only at h ⊢
                split
                · rename_i hc2; rw [if_pos hc2] at h; cases h
                · rename_i hc2; rw [if_neg hc2] at h; exact ih h
              | some (.dir a b) =>
                rw [hk] at h
                simp only at h
                by_cases hkd : k = d
                · rw [hkd] at h ⊢; rw [hd']; exact ih h
                · rw [hother k hkd _ hk]; exact ih h
              | some (.file b) =>
                rw [hk] at h
                simp only at h
                have hkd : k ≠ d := by rintro rfl; rw [hd] at hk; cases hk
                rw [hother k hkd _ hk]; exact ih h
              | none =>
                -- a dangling entry leads nowhere
                rw [hk] at h
                simp only at h
                exfalso
                cases rest with
                | nil => rw [walk_nil] at h; cases h
                | cons r rest =>
                  cases fuel with
                  | zero => cases h
                  | succ fuel => rw [walk, hk] at h; cases h

/-- One more component after a directory. -/
theorem walk_snoc {fs : FS} {f : Bool} {fuel cur d : Nat} {ns : List Name} (n : Name)
    (h : walk fs true fuel cur ns = .found d) :
    ∃ k, walk fs f (fuel + 1) cur (ns ++ [n]) = walk fs f (k + 1) d [n] := by
  induction fuel generalizing cur ns with
  | zero =>
    cases ns with
    | nil => cases h; exact ⟨0, rfl⟩
    | cons m rest => cases h
  | succ fuel ih =>
    cases ns with
    | nil => cases h; exact ⟨fuel + 1, rfl⟩
    | cons m rest =>
      rw [List.cons_append, walk]
      rw [walk] at h
      match hc : fs.nodes[cur]? with
      | some (.file d) => rw [hc] at h; cases h
      | some (.link t) => rw [hc] at h; cases h
      | none => rw [hc] at h; cases h
      | some (.dir up es) =>
        rw [hc] at h
        simp only at h ⊢
        by_cases h1 : m = dot
        · rw [if_pos h1] at h ⊢; exact ih h
        · rw [if_neg h1] at h ⊢
          by_cases h2 : m = dotdot
          · rw [if_pos h2] at h ⊢; exact ih h
          · rw [if_neg h2] at h ⊢
            match hl : es.lookup m with
            | none =>
              rw [hl] at h
              simp only at h
              split at h <;> cases h
            | some k =>
              rw [hl] at h
              simp only at h ⊢
              match hk : fs.nodes[k]? with
              | some (.link t) =>
                rw [hk] at h
                simp only [Bool.true_eq_false, and_false, if_false] at h
                simp only [List.append_eq_nil_iff, List.cons_ne_nil, and_false, false_and, if_false]
                rw [← List.append_assoc]
                exact ih h
              | some (.dir a b) => rw [hk] at h; exact ih h
              | some (.file b) => rw [hk] at h; exact ih h
              | none => rw [hk] at h; exact ih h

/-- The directory of a path and its last component. -/
theorem parent_ok {fs : FS} {p : Path} {d up : Nat} {es : List (Name × Nat)} {n : Name}
    (h : parent fs p = .ok (d, up, es, n)) :
    fs.nodes[d]? = some (.dir up es) ∧ n ≠ dot ∧ n ≠ dotdot ∧ p.names = p.names.dropLast ++ [n] ∧
    walk fs true fs.limit (if p.abs then 0 else fs.cwd) p.names.dropLast = .found d := by
  unfold parent at h
  match hp : p.names.getLast? with
  | none => rw [hp] at h; cases h
  | some m =>
    rw [hp] at h
    simp only at h
    by_cases hm : m = dot ∨ m = dotdot
    · rw [if_pos hm] at h; cases h
    · rw [if_neg hm] at h
      match hw : walk fs true fs.limit (if p.abs then 0 else fs.cwd) p.names.dropLast with
      | .fail e => rw [hw] at h; cases h
      | .absent a b => rw [hw] at h; cases h
      | .found d' =>
        rw [hw] at h
        simp only at h
        match hd : fs.nodes[d']? with
        | some (.file d) => rw [hd] at h; cases h
        | some (.link t) => rw [hd] at h; cases h
        | none => rw [hd] at h; cases h
        | some (.dir up' es') =>
          rw [hd] at h
          cases h
          obtain ⟨ys, hys⟩ := List.getLast?_eq_some_iff.1 hp
          refine ⟨hd, fun e => hm (.inl e), fun e => hm (.inr e), ?_, rfl⟩
          rw [hys]; simp

/-- Resolution of a path by its directory. -/
theorem resolve_parent {fs : FS} {f : Bool} {p : Path} {d : Nat} {n : Name}
    (hn : p.names = p.names.dropLast ++ [n])
    (hw : walk fs true fs.limit (if p.abs then 0 else fs.cwd) p.names.dropLast = .found d) :
    ∃ k, resolve fs f p = walk fs f (k + 1) d [n] := by
  obtain ⟨k, hk⟩ := walk_snoc (f := f) n hw
  refine ⟨k, ?_⟩
  unfold resolve
  rw [if_neg (by intro h; rw [h.2] at hn; simp at hn), hn, ← hk]

theorem walk_last {fs : FS} {f : Bool} {k d up i : Nat} {es : List (Name × Nat)} {n : Name}
    (hd : fs.nodes[d]? = some (.dir up es)) (h1 : n ≠ dot) (h2 : n ≠ dotdot) (hl : es.lookup n = some i)
    (hi : f = true → ∀ t, fs.nodes[i]? ≠ some (.link t)) : walk fs f (k + 1) d [n] = .found i := by
  rw [walk, hd]
  simp only
  rw [if_neg h1, if_neg h2, hl]
  simp only
  match hn : fs.nodes[i]? with
  | some (.link t) =>
    simp only
    cases f with
    | false => rw [if_pos ⟨trivial, rfl⟩]
    | true => exact absurd hn (hi rfl t)
  | some (.dir a b) => exact walk_nil ..
  | some (.file b) => exact walk_nil ..
  | none => exact walk_nil ..

theorem walk_last_absent {fs : FS} {f : Bool} {k d up : Nat} {es : List (Name × Nat)} {n : Name}
    (hd : fs.nodes[d]? = some (.dir up es)) (h1 : n ≠ dot) (h2 : n ≠ dotdot) (hl : es.lookup n = none) :
    walk fs f (k + 1) d [n] = .absent d n := by
  rw [walk, hd]
  simp only
  rw [if_neg h1, if_neg h2, hl]
  rfl

theorem get_set {α : Type} {l : List α} {j i : Nat} {a b : α} (h : l[j]? = some a) :
    (l.set j b)[i]? = if i = j then some b else l[i]? := by
  have hl : j < l.length := by rw [List.getElem?_eq_some_iff] at h; exact h.1
  by_cases hij : i = j
  · subst hij; simp [hl]
  · rw [if_neg hij, List.getElem?_set_ne (Ne.symm hij)]

/-- The contents of a file change: paths lead where they led. -/
theorem ext_file {fs : FS} {i : Nat} {data data' : List UInt8} (h : fs.nodes[i]? = some (.file data)) :
    Ext (fun _ => True) fs (fs.set i (.file data')) := by
  refine ⟨fun k up es hk => ⟨es, ?_, fun _ _ h _ => h⟩, fun k t hk => ?_, fun k t hk => ?_, rfl, rfl⟩
  · show (fs.nodes.set i _)[k]? = _
    rw [get_set h, if_neg (by rintro rfl; rw [h] at hk; cases hk), hk]
  · show (fs.nodes.set i _)[k]? = _
    rw [get_set h, if_neg (by rintro rfl; rw [h] at hk; cases hk), hk]
  · have hk' : (fs.nodes.set i (.file data'))[k]? = some (.link t) := hk
    rw [get_set h] at hk'
    by_cases hki : k = i
    · rw [if_pos hki] at hk'; cases hk'
    · rw [if_neg hki] at hk'; exact hk'

theorem addNode_get {fs : FS} {d up : Nat} {es : List (Name × Nat)} {n : Name} {node : Node}
    (hd : fs.nodes[d]? = some (.dir up es)) (k : Nat) :
    (addNode fs d up es n node).nodes[k]? = if k = fs.nodes.length then some node else
      if k = d then some (.dir up (es ++ [(n, fs.nodes.length)])) else fs.nodes[k]? := by
  have hl : d < fs.nodes.length := by rw [List.getElem?_eq_some_iff] at hd; exact hd.1
  show (fs.nodes.set d _ ++ [node])[k]? = _
  by_cases h1 : k < fs.nodes.length
  · rw [List.getElem?_append_left (by simpa using h1), get_set hd, if_neg (show ¬ k = fs.nodes.length by omega)]
  · rw [List.getElem?_append_right (by simpa using h1)]
    by_cases h2 : k = fs.nodes.length
    · rw [if_pos h2, h2]; simp
    · rw [if_neg h2, if_neg (by omega), List.getElem?_eq_none (by simp; omega), List.getElem?_eq_none (by omega)]

/-- A new inode that is not a link: paths lead where they led. -/
theorem ext_addNode {fs : FS} {d up : Nat} {es : List (Name × Nat)} {n : Name} {node : Node}
    (hd : fs.nodes[d]? = some (.dir up es)) (hnode : ∀ t, node ≠ .link t) :
    Ext (fun _ => True) fs (addNode fs d up es n node) := by
  have lt : ∀ {k : Nat} {x : Node}, fs.nodes[k]? = some x → k ≠ fs.nodes.length := by
    intro k x hx
    rw [List.getElem?_eq_some_iff] at hx
    exact Nat.ne_of_lt hx.1
  refine ⟨fun k up' es' hk => ?_, fun k t hk => ?_, fun k t hk => ?_, rfl, rfl⟩
  · rw [addNode_get hd, if_neg (lt hk)]
    by_cases hkd : k = d
    · rw [if_pos hkd]
      rw [hkd, hd] at hk
      cases hk
      exact ⟨_, rfl, fun m i hm _ => by rw [lookup_concat, hm]; rfl⟩
    · rw [if_neg hkd]
      exact ⟨es', hk, fun _ _ h _ => h⟩
  · rw [addNode_get hd, if_neg (lt hk), if_neg (by rintro rfl; rw [hd] at hk; cases hk), hk]
  · rw [addNode_get hd] at hk
    by_cases h1 : k = fs.nodes.length
    · rw [if_pos h1] at hk; cases hk; exact absurd rfl (hnode t)
    · rw [if_neg h1] at hk
      by_cases h2 : k = d
      · rw [if_pos h2] at hk; cases hk
      · rw [if_neg h2] at hk; exact hk

/-- A directory gets other entries, with those that lead to inodes in `keep`. -/
theorem ext_dir {keep : Nat → Prop} {fs : FS} {d up : Nat} {es es' : List (Name × Nat)}
    (hd : fs.nodes[d]? = some (.dir up es)) (hes : ∀ n i, es.lookup n = some i → keep i → es'.lookup n = some i) :
    Ext keep fs (fs.set d (.dir up es')) := by
  refine ⟨fun k up' es0 hk => ?_, fun k t hk => ?_, fun k t hk => ?_, rfl, rfl⟩
  · show ∃ es1, (fs.nodes.set d _)[k]? = _ ∧ _
    rw [get_set hd]
    by_cases hkd : k = d
    · rw [if_pos hkd]
      rw [hkd, hd] at hk
      cases hk
      exact ⟨_, rfl, hes⟩
    · rw [if_neg hkd]
      exact ⟨es0, hk, fun _ _ h _ => h⟩
  · show (fs.nodes.set d _)[k]? = _
    rw [get_set hd, if_neg (by rintro rfl; rw [hd] at hk; cases hk), hk]
  · have hk' : (fs.nodes.set d (.dir up es'))[k]? = some (.link t) := hk
    rw [get_set hd] at hk'
    by_cases hkd : k = d
    · rw [if_pos hkd] at hk'; cases hk'
    · rw [if_neg hkd] at hk'; exact hk'

theorem Ext.refl (keep : Nat → Prop) (fs : FS) : Ext keep fs fs :=
  ⟨fun _ _ es h => ⟨es, h, fun _ _ h _ => h⟩, fun _ _ h => h, fun _ _ h => h, rfl, rfl⟩

theorem Ext.trans {keep : Nat → Prop} {a b c : FS} (x : Ext keep a b) (y : Ext keep b c) : Ext keep a c := by
  refine ⟨fun k up es h => ?_, fun k t h => y.links k t (x.links k t h), fun k t h => x.nolinks k t (y.nolinks k t h),
    y.cwd.trans x.cwd, y.limit.trans x.limit⟩
  obtain ⟨es1, h1, k1⟩ := x.dirs k up es h
  obtain ⟨es2, h2, k2⟩ := y.dirs k up es1 h1
  exact ⟨es2, h2, fun n i hn hi => k2 n i (k1 n i hn hi) hi⟩

theorem Ext.mono {keep keep' : Nat → Prop} {a b : FS} (x : Ext keep a b) (h : ∀ i, keep' i → keep i) : Ext keep' a b :=
  ⟨fun k up es hk => by
    obtain ⟨es', h1, h2⟩ := x.dirs k up es hk
    exact ⟨es', h1, fun n i hn hi => h2 n i hn (h i hi)⟩, x.links, x.nolinks, x.cwd, x.limit⟩
end Gost.Os
