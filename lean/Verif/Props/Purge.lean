import Verif.Model.Purge
import Mathlib.Tactic.ByContra
/-!
# C55: only untouched repositories are purged by age; C61: pending purges
-/
namespace Verif.Purge
open Verif

/-- `x` is `n` itself or lies below `n`, without following symbolic links. -/
inductive Below : Node → Node → Prop
  | self (n : Node) : Below n n
  | entry {t : Int} {es : List (String × Node)} {name : String} {c x : Node} (hc : (name, c) ∈ es) (h : Below c x) :
      Below (.dir t es) x

/-- A directory that is not reached through a link. -/
def Node.RealDir : Node → Prop
  | .dir _ _ => True
  | _ => False

/-- Nothing in the tree was modified at `ref` or later. -/
def Untouched (n : Node) (ref : Int) : Prop := ∀ x, Below n x → x.mtime < ref

theorem isDirNoSymlink_iff : ∀ n : Node, n.isDirNoSymlink = true ↔ n.RealDir
  | .file _ => by simp [Node.isDirNoSymlink, Node.isdir, Node.RealDir]
  | .link _ _ => by simp [Node.isDirNoSymlink, Node.islink, Node.RealDir]
  | .dir _ _ => by simp [Node.isDirNoSymlink, Node.islink, Node.isdir, Node.RealDir]

theorem hasRecentChanges_iff (n : Node) (ref : Int) :
    hasRecentChanges n ref = true ↔ ∃ x, Below n x ∧ ref ≤ x.mtime := by
  rw [hasRecentChanges]
  split
  · rename_i h; simp only [true_iff]; exact ⟨n, .self n, h⟩
  · rename_i hm
    split
    · rename_i hd
      have hnd : ¬ n.RealDir := by rw [← isDirNoSymlink_iff]; simpa using hd
      simp only [Bool.false_eq_true, false_iff]
      rintro ⟨x, hb, hx⟩
      cases hb with
      | self => exact hm hx
      | entry _ _ => exact hnd trivial
    · rename_i hd
      have hnd : n.RealDir := by rw [← isDirNoSymlink_iff]; simpa using hd
      obtain ⟨t, es, hne⟩ : ∃ t es, n = .dir t es := by
        cases n with
        | file _ => exact hnd.elim
        | link _ _ => exact hnd.elim
        | dir t es => exact ⟨t, es, rfl⟩
      have hsc : n.scandir = es := by rw [hne]; simp only [Node.scandir]
      have hin : ∀ {name c x}, (name, c) ∈ n.scandir → Below c x → Below n x := by
        intro name c x hc hx
        rw [hsc] at hc
        rw [hne]; exact .entry hc hx
      split
      · rename_i ha
        simp only [true_iff]
        obtain ⟨⟨name, c⟩, hc, hr⟩ := List.any_eq_true.1 ha
        exact ⟨c, hin hc (.self c), by simpa using hr⟩
      · simp only [List.any_eq_true, List.mem_attach, true_and, Subtype.exists]
        constructor
        · rintro ⟨⟨name, c⟩, hc, hr⟩
          have hlt : sizeOf c < sizeOf n := Node.scandir_lt n (name, c) hc
          obtain ⟨x, hx, hr⟩ := (hasRecentChanges_iff c ref).1 hr
          exact ⟨x, hin hc hx, hr⟩
        · rintro ⟨x, hb, hx⟩
          have hcase : x = n ∨ ∃ name c, (name, c) ∈ n.scandir ∧ Below c x := by
            rw [hsc]
            rw [hne] at hb ⊢
            cases hb with
            | self => exact .inl rfl
            | entry hc hb => exact .inr ⟨_, _, hc, hb⟩
          rcases hcase with rfl | ⟨name, c, hc, hb⟩
          · exact absurd hx hm
          · have hlt : sizeOf c < sizeOf n := Node.scandir_lt n (name, c) hc
            exact ⟨(name, c), hc, (hasRecentChanges_iff c ref).2 ⟨x, hb, hx⟩⟩
termination_by sizeOf n
decreasing_by all_goals exact hlt

theorem not_recent_iff (n : Node) (ref : Int) : hasRecentChanges n ref = false ↔ Untouched n ref := by
  rw [← Bool.not_eq_true, hasRecentChanges_iff]
  unfold Untouched
  constructor
  · intro h x hx
    by_contra hc
    exact h ⟨x, hx, by omega⟩
  · rintro h ⟨x, hx, hr⟩
    have := h x hx; omega

theorem purgeOld_spec (rm : RmTree) (clock : Nat → Int) : ∀ (l : List (String × Node)) (i : Nat) (base : Dict String Node),
    (l.map Prod.fst).Nodup →
    (∀ name, name ∉ l.map Prod.fst → (purgeOld rm clock i l base).1.get? name = base.get? name) ∧
    (∀ k name n, l[k]? = some (name, n) → (purgeOld rm clock i l base).1.get? name ≠ base.get? name →
      n.RealDir ∧ Untouched n (clock (i + k) - age)) ∧
    ((∀ name n, (name, n) ∈ l → rm name n = none) → (purgeOld rm clock i l base).2 = true ∧
      ∀ k name n, l[k]? = some (name, n) → n.RealDir → Untouched n (clock (i + k) - age) →
        (purgeOld rm clock i l base).1.get? name = none)
  | [], i, base, _ => by simp [purgeOld]
  | (name, n) :: rest, i, base, hn => by
    simp only [List.map_cons, List.nodup_cons] at hn
    have skip : (n.RealDir → ¬ Untouched n (clock i - age)) →
        purgeOld rm clock i ((name, n) :: rest) base = purgeOld rm clock (i + 1) rest base →
        (∀ name', name' ∉ ((name, n) :: rest).map Prod.fst → (purgeOld rm clock i ((name, n) :: rest) base).1.get? name' = base.get? name') ∧
        (∀ k name' n', ((name, n) :: rest)[k]? = some (name', n') → (purgeOld rm clock i ((name, n) :: rest) base).1.get? name' ≠ base.get? name' →
          n'.RealDir ∧ Untouched n' (clock (i + k) - age)) ∧
        ((∀ name' n', (name', n') ∈ (name, n) :: rest → rm name' n' = none) → (purgeOld rm clock i ((name, n) :: rest) base).2 = true ∧
          ∀ k name' n', ((name, n) :: rest)[k]? = some (name', n') → n'.RealDir → Untouched n' (clock (i + k) - age) →
            (purgeOld rm clock i ((name, n) :: rest) base).1.get? name' = none) := by
      intro hskip he
      rw [he]
      obtain ⟨a, b, c⟩ := purgeOld_spec rm clock rest (i + 1) base hn.2
      refine ⟨?_, ?_, ?_⟩
      · intro name' h'; exact a name' (fun hc => h' (by simp at hc ⊢; exact .inr hc))
      · intro k name' n' hk hne
        cases k with
        | zero =>
          simp only [List.getElem?_cons_zero, Option.some.injEq, Prod.mk.injEq] at hk
          exact absurd (a name' (by rw [← hk.1]; exact hn.1)) hne
        | succ k =>
          have := b k name' n' (by simpa using hk) hne
          rw [show i + (k + 1) = i + 1 + k by omega]; exact this
      · intro hrm
        obtain ⟨c1, c2⟩ := c (fun name' n' h' => hrm name' n' (by simp [h']))
        refine ⟨c1, ?_⟩
        intro k name' n' hk hr hu
        cases k with
        | zero =>
          simp only [List.getElem?_cons_zero, Option.some.injEq, Prod.mk.injEq] at hk
          obtain ⟨rfl, rfl⟩ := hk
          exact absurd hu (hskip hr)
        | succ k =>
          exact c2 k name' n' (by simpa using hk) hr (by rw [show i + 1 + k = i + (k + 1) by omega]; exact hu)
    by_cases hd : n.isDirNoSymlink = true
    · by_cases hr : hasRecentChanges n (clock i - age) = true
      · refine skip (fun _ hu => ?_) ?_
        · rw [← not_recent_iff, hr] at hu; cases hu
        · simp [purgeOld, hd, hr]
      · have hr : hasRecentChanges n (clock i - age) = false := by simpa using hr
        have hu := (not_recent_iff n _).1 hr
        have hdir := (isDirNoSymlink_iff n).1 hd
        have e : purgeOld rm clock i ((name, n) :: rest) base = match rm name n with
            | none => purgeOld rm clock (i + 1) rest (base.erase name)
            | some left => (base.set name left, false) := by
          cases hx : rm name n <;> simp [purgeOld, hd, hr, hx]
        rw [e]
        cases hrm : rm name n with
        | some left =>
          simp only []
          refine ⟨?_, ?_, ?_⟩
          · intro name' h'; exact Dict.get?_set_ne _ _ (by rintro rfl; exact h' (by simp))
          · intro k name' n' hk hne
            have hnn : name' = name := by
              by_contra hc; exact hne (Dict.get?_set_ne _ _ hc)
            cases k with
            | zero =>
              simp only [List.getElem?_cons_zero, Option.some.injEq, Prod.mk.injEq] at hk
              obtain ⟨rfl, rfl⟩ := hk
              exact ⟨hdir, hu⟩
            | succ k =>
              exfalso
              apply hn.1
              have := List.mem_of_getElem? (show rest[k]? = some (name', n') by simpa using hk)
              rw [← hnn]
              exact List.mem_map.2 ⟨_, this, rfl⟩
          · intro hall
            have := hall name n (by simp)
            rw [hrm] at this; cases this
        | none =>
          simp only []
          obtain ⟨a, b, c⟩ := purgeOld_spec rm clock rest (i + 1) (base.erase name) hn.2
          refine ⟨?_, ?_, ?_⟩
          · intro name' h'
            rw [a name' (fun hc => h' (by simp at hc ⊢; exact .inr hc)), Dict.get?_erase, if_neg]
            rintro rfl; exact h' (by simp)
          · intro k name' n' hk hne
            cases k with
            | zero =>
              simp only [List.getElem?_cons_zero, Option.some.injEq, Prod.mk.injEq] at hk
              obtain ⟨rfl, rfl⟩ := hk
              exact ⟨hdir, hu⟩
            | succ k =>
              have hk' : rest[k]? = some (name', n') := by simpa using hk
              have hnn : name' ≠ name := by
                rintro rfl
                exact hn.1 (List.mem_map.2 ⟨_, List.mem_of_getElem? hk', rfl⟩)
              have := b k name' n' hk' (by rw [Dict.get?_erase, if_neg hnn]; exact hne)
              rw [show i + (k + 1) = i + 1 + k by omega]; exact this
          · intro hall
            obtain ⟨c1, c2⟩ := c (fun name' n' h' => hall name' n' (by simp [h']))
            refine ⟨c1, ?_⟩
            intro k name' n' hk hr hu
            cases k with
            | zero =>
              simp only [List.getElem?_cons_zero, Option.some.injEq, Prod.mk.injEq] at hk
              obtain ⟨rfl, rfl⟩ := hk
              rw [a name hn.1, Dict.get?_erase, if_pos rfl]
            | succ k =>
              exact c2 k name' n' (by simpa using hk) hr (by rw [show i + 1 + k = i + (k + 1) by omega]; exact hu)
    · refine skip (fun hr => absurd ((isDirNoSymlink_iff n).2 hr) hd) ?_
      simp [purgeOld, hd]

/-- **C55** One pass over a base directory.  An entry changes only if it is a real directory in which, when it was examined,
nothing at all had been modified for 93 days; whether or not deleting fails.  If no deletion fails, all such directories are
gone afterwards. -/
theorem C55_purge_by_age (rm : RmTree) (clock : Nat → Int) (base : Dict String Node) (hn : base.keys.Nodup) :
    (∀ k name n, base[k]? = some (name, n) → (purgeOld rm clock 0 base base).1.get? name ≠ some n →
      n.RealDir ∧ ∀ x, Below n x → x.mtime < clock k - 93 * 24 * 60 * 60) ∧
    ((∀ name n, (name, n) ∈ base → rm name n = none) →
      ∀ k name n, base[k]? = some (name, n) → n.RealDir → (∀ x, Below n x → x.mtime < clock k - 93 * 24 * 60 * 60) →
        (purgeOld rm clock 0 base base).1.get? name = none) := by
  obtain ⟨_, b, c⟩ := purgeOld_spec rm clock base 0 base hn
  refine ⟨?_, ?_⟩
  · intro k name n hk hne
    have hg : base.get? name = some n := Dict.get?_of_mem hn (List.mem_of_getElem? hk)
    have := b k name n hk (by rw [hg]; exact hne)
    rw [Nat.zero_add] at this
    exact ⟨this.1, fun x hx => this.2 x hx⟩
  · intro hrm k name n hk hr hu
    exact (c hrm).2 k name n hk hr (by rw [Nat.zero_add]; exact hu)

/-- A failing deletion keeps everything listed after it from being purged: the exception ends the pass, and the next pass, a day
later, meets the same directory first. -/
theorem C55_failure_blocks_rest : ∃ (rm : RmTree) (clock : Nat → Int) (base : Dict String Node),
    rm "b" (.dir 0 []) = none ∧ base.get? "b" = some (.dir 0 []) ∧ (∀ i, clock i = 2 * age) ∧
    (purgeOld rm clock 0 base base).1.get? "b" = some (.dir 0 []) := by
  refine ⟨fun name n => if name = "a" then some n else none, fun _ => 2 * age, [("a", .dir 0 []), ("b", .dir 0 [])],
    by simp, by simp [Dict.get?], fun _ => rfl, ?_⟩
  have hr : hasRecentChanges (.dir 0 []) (2 * age - age) = false := by
    rw [not_recent_iff]
    intro x hx
    cases hx with
    | self => simp [Node.mtime, age]
    | entry hc _ => cases hc
  simp [purgeOld, hr, Node.isDirNoSymlink, Node.isdir, Node.islink, Dict.get?, Dict.set]

/-- The hypotheses of `C55_purge_by_age` on a base directory with an old tree that has a link to a recent one, a tree that is
old but for a nested file, and a link. -/
example : ∃ base : Dict String Node, base.keys.Nodup ∧
    base[0]? = some ("old", .dir 5 [("l", .link 6 (some (.dir (3 * age) [])))]) ∧
    (∀ x, Below (.dir 5 [("l", .link 6 (some (.dir (3 * age) [])))]) x → x.mtime < 2 * age - 93 * 24 * 60 * 60) ∧
    base[1]? = some ("new", .dir 5 [("d", .dir 6 [("f", .file (2 * age))])]) ∧
    ¬ (∀ x, Below (.dir 5 [("d", .dir 6 [("f", .file (2 * age))])]) x → x.mtime < 2 * age - 93 * 24 * 60 * 60) := by
  refine ⟨[("old", .dir 5 [("l", .link 6 (some (.dir (3 * age) [])))]), ("new", .dir 5 [("d", .dir 6 [("f", .file (2 * age))])])],
    by simp [Dict.keys], rfl, ?_, rfl, ?_⟩
  · intro x hx
    cases hx with
    | self => simp [Node.mtime, age]
    | entry hc h =>
      simp only [List.mem_singleton, Prod.mk.injEq] at hc
      obtain ⟨_, rfl⟩ := hc
      cases h with
      | self => simp [Node.mtime, age]
  · intro h
    have := h (.file (2 * age)) (.entry (List.mem_singleton.2 rfl) (.entry (List.mem_singleton.2 rfl) (.self _)))
    simp [Node.mtime, age] at this

/-! ## C61 -/

theorem purgePending_same (jobs : List String) : ∀ (l : List (String × Entry)) (base : Dict String Entry),
    (purgePending jobs l base).1 = base
  | [], _ => rfl
  | (name, e) :: rest, base => by
    unfold purgePending
    split
    · exact purgePending_same jobs rest base
    · rfl

/-- **C61 (partial)** Active repositories, and those without the mark, are left alone.  The other half is false of the code:
`C61_false_never_purged`. -/
theorem C61_others_untouched_partial (jobs : List String) (base : Dict String Entry) (name : String) (e : Entry)
    (hn : base.get? name = some e) (_h : name ∈ jobs ∨ e.marked = false ∨ e.dir = false) :
    (purgePending jobs base base).1.get? name = some e := by
  rw [purgePending_same, hn]

/-- **C61 is false of the code**: whatever the base directory and the jobs, no garbage collection is ever run and no mark
cleared, and the pass ends at the first repository concerned: `purge_pending_backups` calls `run_gc` on a `Job` that was never
configured and so has no source. -/
theorem C61_false_never_purged (jobs : List String) (base : Dict String Entry) (name : String) (e : Entry)
    (hmem : (name, e) ∈ base) (hd : e.dir = true) (hm : e.marked = true) (hj : name ∉ jobs) :
    purgePending jobs base base = (base, false) := by
  suffices h : ∀ l b, (name, e) ∈ l → purgePending jobs l b = (b, false) from h base base hmem
  intro l
  induction l with
  | nil => intro b h; cases h
  | cons x rest ih =>
    intro b h
    obtain ⟨n', e'⟩ := x
    unfold purgePending
    split
    · rename_i hs
      rcases List.mem_cons.1 h with h | h
      · cases h
        rcases hs with h | h | h
        · exact absurd h hj
        · rw [hd] at h; cases h
        · rw [hm] at h; cases h
      · exact ih b h
    · rfl

/-- **C61 (partial)** The pass comes to its end exactly if it meets no repository that is to be purged. -/
theorem C61_passes_iff_partial (jobs : List String) (base : Dict String Entry) :
    (purgePending jobs base base).2 = true ↔ ∀ name e, (name, e) ∈ base → e.dir = true → e.marked = true → name ∈ jobs := by
  constructor
  · intro h name e hmem hd hm
    apply Decidable.byContradiction
    intro hj
    rw [C61_false_never_purged jobs base name e hmem hd hm hj] at h
    cases h
  · suffices h : ∀ (l : List (String × Entry)) (b : Dict String Entry),
        (∀ name e, (name, e) ∈ l → e.dir = true → e.marked = true → name ∈ jobs) → (purgePending jobs l b).2 = true from h base base
    intro l
    induction l with
    | nil => intro b _; rfl
    | cons x rest ih =>
      intro b h
      obtain ⟨n, e⟩ := x
      unfold purgePending
      rw [if_pos]
      · exact ih b (fun n' e' hm => h n' e' (by simp [hm]))
      · by_cases hd : e.dir = true
        · by_cases hm : e.marked = true
          · exact .inl (h n e (by simp) hd hm)
          · exact .inr (.inr (by simpa using hm))
        · exact .inr (.inl (by simpa using hd))

/-- A base directory for `C61_false_never_purged`. -/
example : purgePending ["active"] [("active", ⟨true, true, 0⟩), ("gone", ⟨true, true, 0⟩), ("gone2", ⟨true, true, 0⟩)]
    [("active", ⟨true, true, 0⟩), ("gone", ⟨true, true, 0⟩), ("gone2", ⟨true, true, 0⟩)] =
    ([("active", ⟨true, true, 0⟩), ("gone", ⟨true, true, 0⟩), ("gone2", ⟨true, true, 0⟩)], false) := by
  decide +kernel

example := C55_purge_by_age (fun _ _ => none) (fun _ => 2 * age)
  [("old", .dir 5 [("l", .link 6 (some (.dir (3 * age) [])))]), ("new", .dir 5 [("d", .dir 6 [("f", .file (2 * age))])])] (by simp [Dict.keys])
example := C61_others_untouched_partial ["active"] [("active", ⟨true, true, 0⟩), ("gone", ⟨true, true, 0⟩)] "active" ⟨true, true, 0⟩
  (by decide +kernel) (.inl (by decide))

end Verif.Purge
