import Verif.Spec.Crash
/-!
# Properties C43, C44 and the file level of C45
-/
namespace Verif.Fs
open Verif

/-- `P` holds before and after every system call. -/
def Always (P : Fs → Prop) : List Op → Fs → Prop
  | [], fs => P fs
  | o :: ops, fs => P fs ∧ Always P ops (Op.apply fs o)

theorem Always.take {P : Fs → Prop} {ops : List Op} {fs : Fs} (h : Always P ops fs) (k : Nat) : P (run (ops.take k) fs) := by
  induction ops generalizing fs k with
  | nil => rw [List.take_nil]; exact h
  | cons o ops ih =>
    cases k with
    | zero => exact h.1
    | succ k => simpa [run] using ih h.2 k

theorem Always.append {P : Fs → Prop} {a b : List Op} {fs : Fs} (h1 : Always P a fs) (h2 : Always P b (run a fs)) :
    Always P (a ++ b) fs := by
  induction a generalizing fs with
  | nil => exact h2
  | cons o a ih => exact ⟨h1.1, ih h1.2 h2⟩

theorem run_append (a b : List Op) (fs : Fs) : run (a ++ b) fs = run b (run a fs) := by simp [run]
theorem run_cons (o : Op) (a : List Op) (fs : Fs) : run (o :: a) fs = run a (Op.apply fs o) := rfl

/-- Every binding the name may have after a power loss is to a file that is on disk with a content in `A`. -/
def Holds (fs : Fs) (n : String) (A : Option Bytes → Prop) : Prop :=
  ∀ b, (b = fs.names n ∨ b ∈ fs.past n) →
    match b with
    | none => A none
    | some i => i < fs.next ∧ fs.dirty i = false ∧ A (some (fs.content i))

theorem Holds.mono {fs : Fs} {n : String} {A B : Option Bytes → Prop} (h : Holds fs n A) (hAB : ∀ x, A x → B x) :
    Holds fs n B := by
  intro b hb
  have := h b hb
  cases b with
  | none => exact hAB _ this
  | some i => exact ⟨this.1, this.2.1, hAB _ this.2.2⟩

theorem Holds.read {fs : Fs} {n : String} {A : Option Bytes → Prop} (h : Holds fs n A) : A (fs.read n) := by
  have := h _ (.inl rfl)
  unfold Fs.read
  cases hb : fs.names n with
  | none => rw [hb] at this; exact this
  | some i => rw [hb] at this; exact this.2.2

theorem Holds.power {fs fs' : Fs} {n : String} {A : Option Bytes → Prop} (h : Holds fs n A) (hp : AfterPowerLoss fs fs') :
    A (fs'.read n) := by
  have := h _ (hp.names n)
  unfold Fs.read
  cases hb : fs'.names n with
  | none => rw [hb] at this; exact this
  | some i =>
    rw [hb] at this
    show A (some (fs'.content i))
    rw [hp.content i this.2.1]
    exact this.2.2

theorem Durable.holds {fs : Fs} {n : String} {c : Option Bytes} (h : Durable fs n c) : Holds fs n (· = c) := by
  intro b hb
  have hb' : b = fs.names n := by
    rcases hb with hb | hb
    · exact hb
    · exact h.names b hb
  subst hb'
  have := h.read
  unfold Fs.read at this
  cases hx : fs.names n with
  | none => rw [hx] at this; exact this
  | some i => rw [hx] at this; exact ⟨h.old i hx, h.clean i hx, this⟩

/-- The temporary file while it is written: bound to a file of its own. -/
structure Tmp (fs : Fs) (n tmp : String) (t : Nat) (c : Bytes) : Prop where
  bound : fs.names tmp = some t
  lt : t < fs.next
  content : fs.content t = c
  other : ∀ b, (b = fs.names n ∨ b ∈ fs.past n) → b ≠ some t

theorem Holds.create {fs : Fs} {n tmp : String} {A : Option Bytes → Prop} (h : Holds fs n A) (hne : n ≠ tmp) :
    Holds (Op.apply fs (.create tmp)) n A ∧ Tmp (Op.apply fs (.create tmp)) n tmp fs.next [] := by
  have hno : ∀ b, (b = fs.names n ∨ b ∈ fs.past n) → b ≠ some fs.next := by
    rintro b hb rfl
    have := (h _ hb).1
    omega
  constructor
  · intro b hb
    simp only [Op.apply, Fs.create, Fs.bind, Fs.put, if_neg hne] at hb ⊢
    have h1 := h b hb
    have h2 := hno b hb
    cases b with
    | none => exact h1
    | some i =>
      obtain ⟨a1, a2, a3⟩ := h1
      have hi : i ≠ fs.next := fun he => h2 (by rw [he])
      refine ⟨by omega, by simp [hi, a2], by simpa [hi] using a3⟩
  · refine ⟨by simp [Op.apply, Fs.create, Fs.bind], by simp [Op.apply, Fs.create, Fs.bind, Fs.put],
      by simp [Op.apply, Fs.create, Fs.bind, Fs.put], ?_⟩
    intro b hb
    simp only [Op.apply, Fs.create, Fs.bind, Fs.put, if_neg hne] at hb
    exact hno b hb

theorem Holds.append {fs : Fs} {n tmp : String} {A : Option Bytes → Prop} {t : Nat} {c : Bytes} (h : Holds fs n A)
    (ht : Tmp fs n tmp t c) (p : Bytes) :
    Holds (Op.apply fs (.append tmp p)) n A ∧ Tmp (Op.apply fs (.append tmp p)) n tmp t (c ++ p) := by
  simp only [Op.apply, ht.bound]
  constructor
  · intro b hb
    have h1 := h b hb
    have h2 := ht.other b hb
    cases b with
    | none => exact h1
    | some i =>
      have hi : i ≠ t := fun he => h2 (by rw [he])
      exact ⟨h1.1, by simp [Fs.put, hi, h1.2.1], by simpa [Fs.put, hi] using h1.2.2⟩
  · exact ⟨ht.bound, ht.lt, by simp [Fs.put, ht.content], ht.other⟩

theorem Holds.appends {n tmp : String} {A : Option Bytes → Prop} {t : Nat} (pieces : List Bytes) :
    ∀ {fs : Fs} {c : Bytes}, Holds fs n A → Tmp fs n tmp t c →
      Always (fun fs => Holds fs n A) (pieces.map (.append tmp)) fs ∧
      Holds (run (pieces.map (.append tmp)) fs) n A ∧
      Tmp (run (pieces.map (.append tmp)) fs) n tmp t (c ++ pieces.flatten) := by
  induction pieces with
  | nil => intro fs c h ht; exact ⟨h, h, by simpa [run] using ht⟩
  | cons p ps ih =>
    intro fs c h ht
    obtain ⟨h1, h2⟩ := h.append ht p
    obtain ⟨h3, h4, h5⟩ := ih h1 h2
    exact ⟨⟨h, h3⟩, h4, by simpa [run] using h5⟩

theorem Holds.fsync {fs : Fs} {n tmp : String} {A : Option Bytes → Prop} {t : Nat} {c : Bytes} (h : Holds fs n A)
    (ht : Tmp fs n tmp t c) :
    Holds (Op.apply fs (.fsync tmp)) n A ∧ Tmp (Op.apply fs (.fsync tmp)) n tmp t c ∧
      (Op.apply fs (.fsync tmp)).dirty t = false := by
  simp only [Op.apply, ht.bound]
  refine ⟨?_, ⟨ht.bound, ht.lt, ht.content, ht.other⟩, by simp⟩
  intro b hb
  have h1 := h b hb
  cases b with
  | none => exact h1
  | some i => exact ⟨h1.1, by simp only; split <;> simp [h1.2.1], h1.2.2⟩

theorem Holds.unlink {fs : Fs} {n tmp : String} {A : Option Bytes → Prop} (h : Holds fs n A) (hne : n ≠ tmp) :
    Holds (Op.apply fs (.unlink tmp)) n A := by
  intro b hb
  simp only [Op.apply, Fs.bind, if_neg hne] at hb ⊢
  exact h b hb

theorem Holds.rename {fs : Fs} {n tmp : String} {A : Option Bytes → Prop} {t : Nat} {c : Bytes} (h : Holds fs n A)
    (ht : Tmp fs n tmp t c) (hd : fs.dirty t = false) (hne : n ≠ tmp) (hc : A (some c)) :
    Holds (Op.apply fs (.rename tmp n)) n A := by
  intro b hb
  simp only [Op.apply, Fs.bind, if_neg hne, if_true] at hb ⊢
  have : b = some t ∨ (b = fs.names n ∨ b ∈ fs.past n) := by
    rcases hb with hb | hb
    · left; rw [hb, ht.bound]
    · right; exact List.mem_cons.1 hb
  rcases this with rfl | hb
  · exact ⟨ht.lt, hd, by rw [ht.content]; exact hc⟩
  · exact h b hb

/-- One block: at every moment the name has only durable contents in `A`. -/
theorem Holds.safeFile {fs : Fs} {n tmp : String} {A : Option Bytes → Prop} (h : Holds fs n A) (hne : n ≠ tmp) (b : Block)
    (hA : b.ok = true → A (some b.pieces.flatten)) :
    Always (fun fs => Holds fs n A) (safeFile n tmp b) fs ∧ Holds (run (safeFile n tmp b) fs) n A := by
  obtain ⟨h1, h2⟩ := h.create hne
  obtain ⟨h3, h4, h5⟩ := Holds.appends b.pieces h1 h2
  obtain ⟨h6, h7, h8⟩ := h4.fsync h5
  unfold Fs.safeFile
  have key : Always (fun fs => Holds fs n A) (if b.syncFails then []
      else .fsync tmp :: (if b.raises then [.unlink tmp] else if b.renameFails then [] else [.rename tmp n]))
        (run (b.pieces.map (.append tmp)) (Op.apply fs (.create tmp))) ∧
      Holds (run (if b.syncFails then []
        else .fsync tmp :: (if b.raises then [.unlink tmp] else if b.renameFails then [] else [.rename tmp n]))
        (run (b.pieces.map (.append tmp)) (Op.apply fs (.create tmp)))) n A := by
    cases hs : b.syncFails with
    | true => exact ⟨h4, h4⟩
    | false =>
      simp only [Bool.false_eq_true, if_false]
      cases hr : b.raises with
      | true =>
        have := h6.unlink hne
        exact ⟨⟨h4, h6, this⟩, this⟩
      | false =>
        simp only [Bool.false_eq_true, if_false]
        cases hn : b.renameFails with
        | true => exact ⟨⟨h4, h6⟩, h6⟩
        | false =>
          have := h6.rename h7 h8 hne (by simpa using hA (by simp [Block.ok, hs, hr, hn]))
          exact ⟨⟨h4, h6, this⟩, this⟩
  exact ⟨⟨h, h3.append key.1⟩, by rw [List.cons_append, run_cons, run_append]; exact key.2⟩

/-- The system calls of several blocks one after the other. -/
def safeFiles (n : String) : List (String × Block) → List Op
  | [] => []
  | (tmp, b) :: rest => safeFile n tmp b ++ safeFiles n rest

theorem Holds.safeFiles {n : String} {A : Option Bytes → Prop} (l : List (String × Block)) :
    ∀ {fs : Fs}, Holds fs n A → (∀ x ∈ l, n ≠ x.1) → (∀ x ∈ l, x.2.ok = true → A (some x.2.pieces.flatten)) →
      Always (fun fs => Holds fs n A) (safeFiles n l) fs := by
  induction l with
  | nil => intro fs h _ _; exact h
  | cons x l ih =>
    intro fs h hne hA
    obtain ⟨h1, h2⟩ := h.safeFile (hne x (by simp)) x.2 (hA x (by simp))
    exact h1.append (ih h2 (fun y hy => hne y (by simp [hy])) (fun y hy => hA y (by simp [hy])))

/-! ### C43 -/

/-- **C43** A file is rewritten any number of times, each time with any content, raising or not.  If the process is killed before
or after any system call, or the machine loses power then, the file has afterwards its original content or the complete content
of one of the blocks that did not raise. -/
theorem C43_crash_atomic (fs : Fs) (n : String) (old : Option Bytes) (h : Durable fs n old) (l : List (String × Block))
    (hne : ∀ x ∈ l, n ≠ x.1) (k : Nat) :
    (∀ c, (run ((safeFiles n l).take k) fs).read n = c → c = old ∨ ∃ x ∈ l, x.2.ok = true ∧ c = some x.2.pieces.flatten) ∧
    (∀ fs', AfterPowerLoss (run ((safeFiles n l).take k) fs) fs' →
      fs'.read n = old ∨ ∃ x ∈ l, x.2.ok = true ∧ fs'.read n = some x.2.pieces.flatten) := by
  have := Holds.safeFiles (A := fun c => c = old ∨ ∃ x ∈ l, x.2.ok = true ∧ c = some x.2.pieces.flatten) l
    (h.holds.mono (fun x hx => .inl hx)) hne (fun x hx ho => .inr ⟨x, hx, ho, rfl⟩)
  have hk := this.take k
  exact ⟨fun c hc => hc ▸ hk.read, fun fs' hp => hk.power hp⟩

/-- What the name refers to while the temporary file is written, and at the end. -/
theorem read_appends (n tmp : String) (t : Nat) (pieces : List Bytes) :
    ∀ {fs : Fs} {c : Bytes}, Tmp fs n tmp t c → (run (pieces.map (.append tmp)) fs).read n = fs.read n ∧
      Tmp (run (pieces.map (.append tmp)) fs) n tmp t (c ++ pieces.flatten) ∧
      (∀ m, (run (pieces.map (.append tmp)) fs).names m = fs.names m) := by
  induction pieces with
  | nil => intro fs c h; exact ⟨rfl, by simpa [run] using h, fun _ => rfl⟩
  | cons p ps ih =>
    intro fs c ht
    have ht' : Tmp (Op.apply fs (.append tmp p)) n tmp t (c ++ p) := by
      simp only [Op.apply, ht.bound]
      exact ⟨ht.bound, ht.lt, by simp [Fs.put, ht.content], ht.other⟩
    have hr : (Op.apply fs (.append tmp p)).read n = fs.read n := by
      simp only [Op.apply, ht.bound, Fs.read, Fs.put]
      cases hb : fs.names n with
      | none => rfl
      | some i =>
        have hi : i ≠ t := fun he => ht.other _ (.inl hb.symm) (by rw [he])
        simp [hi]
    obtain ⟨h1, h2, h3⟩ := ih ht'
    refine ⟨h1.trans hr, by simpa [run] using h2, fun m => (h3 m).trans ?_⟩
    simp only [Op.apply, ht.bound, Fs.put]

/-- **C43** A block that ends normally leaves exactly the new content.  One that raises leaves the old content; if its
exception is not from flushing or renaming, the temporary file is gone. -/
theorem C43_result_partial (fs : Fs) (n tmp : String) (hne : n ≠ tmp) (old : Option Bytes) (h : Durable fs n old) (b : Block) :
    (b.ok = true → (run (safeFile n tmp b) fs).read n = some b.pieces.flatten ∧ (run (safeFile n tmp b) fs).names tmp = none) ∧
    (b.ok = false → (run (safeFile n tmp b) fs).read n = old) ∧
    (b.raises = true → b.syncFails = false → (run (safeFile n tmp b) fs).names tmp = none) := by
  obtain ⟨h1, h2⟩ := (h.holds.create hne)
  obtain ⟨h3, h4, h5⟩ := Holds.appends b.pieces h1 h2
  obtain ⟨h6, h7, h8⟩ := h4.fsync h5
  have hrun : run (safeFile n tmp b) fs = run (if b.syncFails then []
      else .fsync tmp :: (if b.raises then [.unlink tmp] else if b.renameFails then [] else [.rename tmp n]))
        (run (b.pieces.map (.append tmp)) (Op.apply fs (.create tmp))) := by
    unfold safeFile
    rw [List.cons_append, run_cons, run_append]
  rw [hrun]
  refine ⟨?_, ?_, ?_⟩
  · intro hok
    simp only [Block.ok, Bool.and_eq_true, Bool.not_eq_true'] at hok
    obtain ⟨⟨o1, o2⟩, o3⟩ := hok
    simp only [o1, o2, o3, Bool.false_eq_true, if_false]
    rw [run_cons, run_cons]
    constructor
    · show (Op.apply (Op.apply _ (.fsync tmp)) (.rename tmp n)).read n = _
      simp only [Op.apply.eq_5, Fs.read, Fs.bind, if_neg hne, if_true, h7.bound, Option.map_some, h7.content]
      simp
    · show (Op.apply (Op.apply _ (.fsync tmp)) (.rename tmp n)).names tmp = none
      simp [Op.apply.eq_5, Fs.bind]
  · intro hok
    cases hs : b.syncFails with
    | true => exact h4.read
    | false =>
      simp only [Bool.false_eq_true, if_false]
      cases hr : b.raises with
      | true => exact (h6.unlink hne).read
      | false =>
        simp only [Bool.false_eq_true, if_false]
        cases hn : b.renameFails with
        | true => exact h6.read
        | false => simp [Block.ok, hs, hr, hn] at hok
  · intro hr hs
    simp only [hr, hs, Bool.false_eq_true, if_false, if_true]
    show (Op.apply (Op.apply _ (.fsync tmp)) (.unlink tmp)).names tmp = none
    simp [Op.apply.eq_6, Fs.bind]

/-- An empty file system. -/
def emptyFs : Fs := ⟨fun _ => none, fun _ => [], 0, fun _ => false, fun _ => []⟩

/-- **C43** is false of the code in one point: if writing raises because the disk is full, `flush` in `__exit__` raises again and
the temporary file stays. -/
theorem C43_false_tempfile_left : ∃ (fs : Fs) (n tmp : String) (b : Block), n ≠ tmp ∧ Durable fs n none ∧ b.raises = true ∧
    fs.names tmp = none ∧ (run (safeFile n tmp b) fs).names tmp ≠ none :=
  ⟨emptyFs, "a.rev", "tmp1", ⟨[[1]], true, true, false⟩, by decide, ⟨rfl, by simp [emptyFs], by simp [emptyFs], by simp [emptyFs]⟩,
    rfl, rfl, by decide⟩

/-- The hypotheses of C43 can be met, with one block that raises and one that does not. -/
example : ∃ (fs : Fs) (l : List (String × Block)), Durable fs "a.rev" (some [1, 2]) ∧ (∀ x ∈ l, "a.rev" ≠ x.1) ∧
    (∃ x ∈ l, x.2.ok = true) ∧ ∃ x ∈ l, x.2.ok = false :=
  ⟨run [.create "a.rev", .append "a.rev" [1, 2], .sync] emptyFs, [("tmp1", ⟨[[3], [4]], false, false, false⟩), ("tmp2", ⟨[[3]], true, false, false⟩)],
    ⟨rfl, by simp [run, Op.apply], by intro i _; rfl, by
      intro i hi
      have : (some 0 : Option Nat) = some i := hi
      cases this; decide⟩, by simp, by simp [Block.ok], by simp [Block.ok]⟩

/-! ### The contents a process sees -/

/-- No two names for one file. -/
structure WF (fs : Fs) : Prop where
  lt : ∀ n i, fs.names n = some i → i < fs.next
  inj : ∀ a b i, fs.names a = some i → fs.names b = some i → a = b

/-- Effect of a system call on the contents. -/
def Op.abs (r : String → Option Bytes) : Op → String → Option Bytes
  | .create n, m => if m = n then some [] else r m
  | .truncate n, m => if m = n then some [] else r m
  | .append n b, m => if m = n then (r n).map (· ++ b) else r m
  | .fsync _, m => r m
  | .rename a b, m => if m = a then none else if m = b then r a else r m
  | .unlink n, m => if m = n then none else r m
  | .sync, m => r m

theorem create_abs {fs : Fs} (h : WF fs) (n : String) : WF (fs.create n) ∧ ∀ m, (fs.create n).read m = Op.abs fs.read (.create n) m := by
  refine ⟨⟨?_, ?_⟩, ?_⟩
  · intro m i hm
    simp only [Fs.create, Fs.bind, Fs.put] at hm ⊢
    split at hm
    · cases hm; omega
    · have := h.lt m i hm; omega
  · intro a b i ha hb
    simp only [Fs.create, Fs.bind, Fs.put] at ha hb
    split at ha <;> split at hb
    · subst_vars; rfl
    · cases ha; exact absurd (h.lt b _ hb) (by omega)
    · cases hb; exact absurd (h.lt a _ ha) (by omega)
    · exact h.inj a b i ha hb
  · intro m
    simp only [Fs.create, Fs.bind, Fs.put, Fs.read, Op.abs]
    split
    · simp
    · cases hm : fs.names m with
      | none => rfl
      | some i =>
        have := h.lt m i hm
        have hi : i ≠ fs.next := by omega
        simp [hi]

theorem put_abs {fs : Fs} (h : WF fs) {n : String} {i : Nat} (hn : fs.names n = some i) (c : Bytes) :
    WF (fs.put i c) ∧ ∀ m, (fs.put i c).read m = if m = n then some c else fs.read m := by
  refine ⟨⟨h.lt, h.inj⟩, ?_⟩
  intro m
  simp only [Fs.put, Fs.read]
  split
  · subst_vars; simp [hn]
  · rename_i hne
    cases hm : fs.names m with
    | none => rfl
    | some j =>
      have hj : j ≠ i := by
        rintro rfl
        exact hne (h.inj m n j hm hn)
      simp [hj]

/-- The contents change as one expects. -/
theorem apply_abs {fs : Fs} (h : WF fs) (o : Op) (hren : ∀ a b, o = .rename a b → a ≠ b) :
    WF (Op.apply fs o) ∧ ∀ m, (Op.apply fs o).read m = Op.abs fs.read o m := by
  cases o with
  | create n => exact create_abs h n
  | truncate n =>
    simp only [Op.apply]
    cases hn : fs.names n with
    | none => exact create_abs h n
    | some i => exact put_abs h hn []
  | append n b =>
    simp only [Op.apply]
    cases hn : fs.names n with
    | none =>
      refine ⟨h, fun m => ?_⟩
      simp only [Op.abs]
      split
      · subst_vars; simp [Fs.read, hn]
      · rfl
    | some i =>
      have := put_abs h hn (fs.content i ++ b)
      refine ⟨this.1, fun m => (this.2 m).trans ?_⟩
      simp only [Op.abs]
      split
      · simp [Fs.read, hn]
      · rfl
  | fsync n =>
    simp only [Op.apply]
    cases hn : fs.names n with
    | none => exact ⟨h, fun m => rfl⟩
    | some i => exact ⟨⟨h.lt, h.inj⟩, fun m => rfl⟩
  | rename a b =>
    have hab : a ≠ b := hren a b rfl
    refine ⟨⟨?_, ?_⟩, ?_⟩
    · intro m i hm
      simp only [Op.apply, Fs.bind] at hm ⊢
      split at hm
      · cases hm
      · split at hm
        · exact h.lt _ _ hm
        · exact h.lt _ _ hm
    · intro x y i hx hy
      simp only [Op.apply, Fs.bind] at hx hy
      split at hx
      · cases hx
      · split at hy
        · cases hy
        · rename_i hxa hya
          split at hx <;> split at hy
          · subst_vars; rfl
          · exact absurd (h.inj _ _ _ hx hy).symm hya
          · exact absurd (h.inj _ _ _ hx hy) hxa
          · exact h.inj x y i hx hy
    · intro m
      simp only [Op.apply, Fs.bind, Fs.read, Op.abs]
      split
      · rfl
      · split
        · rfl
        · rfl
  | unlink n =>
    refine ⟨⟨?_, ?_⟩, ?_⟩
    · intro m i hm
      simp only [Op.apply, Fs.bind] at hm ⊢
      split at hm
      · cases hm
      · exact h.lt _ _ hm
    · intro x y i hx hy
      simp only [Op.apply, Fs.bind] at hx hy
      split at hx
      · cases hx
      · split at hy
        · cases hy
        · exact h.inj x y i hx hy
    · intro m
      simp only [Op.apply, Fs.bind, Fs.read, Op.abs]
      split <;> rfl
  | sync => exact ⟨⟨h.lt, h.inj⟩, fun m => rfl⟩

/-- Contents after a sequence of calls. -/
def absRun (ops : List Op) (r : String → Option Bytes) : String → Option Bytes := ops.foldl Op.abs r

theorem run_abs (ops : List Op) : ∀ {fs : Fs}, WF fs → (∀ a b, Op.rename a b ∈ ops → a ≠ b) →
    WF (run ops fs) ∧ ∀ m, (run ops fs).read m = absRun ops fs.read m := by
  induction ops with
  | nil => intro fs h _; exact ⟨h, fun _ => rfl⟩
  | cons o ops ih =>
    intro fs h hren
    obtain ⟨h1, h2⟩ := apply_abs h o (fun a b he => hren a b (by simp [he]))
    obtain ⟨h3, h4⟩ := ih h1 (fun a b hm => hren a b (by simp [hm]))
    refine ⟨h3, fun m => (h4 m).trans ?_⟩
    have : (Op.apply fs o).read = Op.abs fs.read o := funext h2
    rw [this]; rfl

theorem absRun_append (a b : List Op) (r : String → Option Bytes) : absRun (a ++ b) r = absRun b (absRun a r) := by
  simp [absRun]

theorem absRun_appends (tmp : String) (pieces : List Bytes) : ∀ (r : String → Option Bytes) (c : Bytes), r tmp = some c →
    ∀ m, absRun (pieces.map (.append tmp)) r m = if m = tmp then some (c ++ pieces.flatten) else r m := by
  induction pieces with
  | nil => intro r c h m; simp only [List.map_nil, absRun, List.foldl_nil]; split <;> simp_all
  | cons p ps ih =>
    intro r c h m
    show absRun (ps.map (.append tmp)) (Op.abs r (.append tmp p)) m = _
    rw [ih (Op.abs r (.append tmp p)) (c ++ p) (by simp [Op.abs, h])]
    split
    · simp
    · rename_i hne; simp [Op.abs, hne]

/-! ### C45, file level -/

/-- **C45** A chunk file: if the process is killed before or after any system call of `Chunk.flush`, the file under its final
name is unchanged or has the complete new content; no other file but the temporary one changes.  When `flush`
is finished, it has the new content. -/
theorem C45_chunk_file_atomic_partial (fs : Fs) (hw : WF fs) (target tmp : String) (hne : target ≠ tmp) (pieces : List Bytes)
    (k : Nat) :
    ((run ((chunkFlush target tmp pieces).take k) fs).read target = fs.read target ∨
     (run ((chunkFlush target tmp pieces).take k) fs).read target = some pieces.flatten) ∧
    (∀ m, m ≠ target → m ≠ tmp → (run ((chunkFlush target tmp pieces).take k) fs).read m = fs.read m) ∧
    (run (chunkFlush target tmp pieces) fs).read target = some pieces.flatten := by
  have hren : ∀ a b, Op.rename a b ∈ chunkFlush target tmp pieces → a ≠ b := by
    intro a b hm
    simp [chunkFlush] at hm
    rw [hm.1, hm.2]; exact hne.symm
  have hfin : ∀ m, absRun (chunkFlush target tmp pieces) fs.read m =
      if m = tmp then none else if m = target then some pieces.flatten else fs.read m := by
    intro m
    unfold chunkFlush
    rw [List.cons_append, show ∀ o l r, absRun (o :: l) r = absRun l (Op.abs r o) from fun _ _ _ => rfl, absRun_append]
    have h1 := absRun_appends tmp pieces (Op.abs fs.read (.create tmp)) [] (by simp [Op.abs])
    show Op.abs _ (.rename tmp target) m = _
    simp only [Op.abs, h1]
    split
    · rfl
    · split
      · simp
      · simp_all
  have hpre : ∀ k m, m ≠ tmp → k ≤ pieces.length + 1 → absRun ((chunkFlush target tmp pieces).take k) fs.read m = fs.read m := by
    intro k m hm hk
    cases k with
    | zero => rfl
    | succ k =>
      unfold chunkFlush
      rw [List.cons_append, List.take_succ_cons, show ∀ o l r, absRun (o :: l) r = absRun l (Op.abs r o) from fun _ _ _ => rfl,
        List.take_append_of_le_length (by simp; omega), ← List.map_take]
      rw [absRun_appends tmp _ _ [] (by simp [Op.abs]), if_neg hm]
      simp [Op.abs, hm]
  have hlen : (chunkFlush target tmp pieces).length = pieces.length + 2 := by simp [chunkFlush]
  have hk := (run_abs ((chunkFlush target tmp pieces).take k) hw (fun a b hm => hren a b (List.mem_of_mem_take hm))).2
  refine ⟨?_, ?_, ?_⟩
  · rw [hk]
    by_cases hle : k ≤ pieces.length + 1
    · exact .inl (hpre k target hne hle)
    · right
      rw [List.take_of_length_le (by omega), hfin, if_neg hne, if_pos rfl]
  · intro m h1 h2
    rw [hk]
    by_cases hle : k ≤ pieces.length + 1
    · exact hpre k m h2 hle
    · rw [List.take_of_length_le (by omega), hfin, if_neg h2, if_neg h1]
  · rw [(run_abs _ hw hren).2, hfin, if_neg hne, if_pos rfl]

/-! ### C44 -/

/-- The names in a backup are different files, and no file has a temporary name. -/
structure Names (chunks : List ChunkWrite) (mapName revName revTmp : String) : Prop where
  targets : (chunks.map ChunkWrite.target).Nodup
  tmps : ∀ c ∈ chunks, ∀ d ∈ chunks, c.target ≠ d.tmp
  map : ∀ c ∈ chunks, mapName ≠ c.target ∧ mapName ≠ c.tmp
  rev : ∀ c ∈ chunks, revName ≠ c.target ∧ revName ≠ c.tmp
  revTmp : (∀ c ∈ chunks, revTmp ≠ c.target) ∧ revTmp ≠ mapName ∧ revTmp ≠ revName
  mapRev : mapName ≠ revName

theorem absRun_chunk {target tmp : String} (hne : target ≠ tmp) (pieces : List Bytes) (r : String → Option Bytes) (m : String) :
    absRun (chunkFlush target tmp pieces) r m =
      if m = tmp then none else if m = target then some pieces.flatten else r m := by
  unfold chunkFlush
  rw [List.cons_append, show ∀ o l r, absRun (o :: l) r = absRun l (Op.abs r o) from fun _ _ _ => rfl, absRun_append]
  have h1 := absRun_appends tmp pieces (Op.abs r (.create tmp)) [] (by simp [Op.abs])
  show Op.abs _ (.rename tmp target) m = _
  simp only [Op.abs, h1]
  split
  · rfl
  · split
    · simp
    · simp_all

theorem absRun_chunks (chunks : List ChunkWrite) (ht : (chunks.map ChunkWrite.target).Nodup)
    (hd : ∀ c ∈ chunks, ∀ d ∈ chunks, c.target ≠ d.tmp) (r : String → Option Bytes) :
    (∀ c ∈ chunks, absRun (chunks.map (fun c => chunkFlush c.target c.tmp c.pieces)).flatten r c.target = some c.pieces.flatten) ∧
    ∀ m, (∀ c ∈ chunks, m ≠ c.target ∧ m ≠ c.tmp) →
      absRun (chunks.map (fun c => chunkFlush c.target c.tmp c.pieces)).flatten r m = r m := by
  induction chunks generalizing r with
  | nil => simp [absRun]
  | cons c l ih =>
    simp only [List.map_cons, List.nodup_cons] at ht
    obtain ⟨i1, i2⟩ := ih ht.2 (fun a ha b hb => hd a (by simp [ha]) b (by simp [hb]))
      (absRun (chunkFlush c.target c.tmp c.pieces) r)
    simp only [List.map_cons, List.flatten_cons, absRun_append]
    refine ⟨?_, ?_⟩
    · intro x hx
      rcases List.mem_cons.1 hx with rfl | hx
      · rw [i2 x.target ?_, absRun_chunk (hd x (by simp) x (by simp)), if_neg (hd x (by simp) x (by simp)), if_pos rfl]
        intro d hdl
        refine ⟨?_, hd x (by simp) d (by simp [hdl])⟩
        intro he
        exact ht.1 (by rw [he]; exact List.mem_map_of_mem hdl)
      · exact i1 x hx
    · intro m hm
      rw [i2 m (fun d hdl => hm d (by simp [hdl])), absRun_chunk (hd c (by simp) c (by simp)),
        if_neg (hm c (by simp)).2, if_neg (hm c (by simp)).1]

/-- **C44** (`_partial`: after the final `sync`) If the power fails when `backup` has finished its `os.sync()`, all chunks, the
mapping file and the metadata of the complete revision are on disk. -/
theorem C44_after_sync_partial (fs : Fs) (hw : WF fs) (chunks : List ChunkWrite) (mapName revName revTmp : String)
    (mapPieces revPieces : List Bytes) (hn : Names chunks mapName revName revTmp) (fs' : Fs)
    (hp : AfterPowerLoss (run (backupFiles chunks mapName mapPieces revName revTmp revPieces) fs) fs') :
    (∀ c ∈ chunks, fs'.read c.target = some c.pieces.flatten) ∧ fs'.read mapName = some mapPieces.flatten ∧
    fs'.read revName = some revPieces.flatten := by
  have hread : ∀ m, fs'.read m = (run (backupFiles chunks mapName mapPieces revName revTmp revPieces) fs).read m := by
    intro m
    unfold backupFiles at hp ⊢
    rw [run_append] at hp ⊢
    generalize run ((chunks.map (fun c => chunkFlush c.target c.tmp c.pieces)).flatten ++ mappingFlush mapName mapPieces ++
      safeFile revName revTmp ⟨revPieces, false, false, false⟩) fs = g at *
    have h1 := hp.names m
    have h2 : fs'.names m = g.names m := by
      rcases h1 with h | h
      · exact h
      · exact absurd h (by simp [run, Op.apply])
    show (fs'.names m).map fs'.content = (g.names m).map g.content
    rw [h2]
    cases g.names m with
    | none => rfl
    | some i =>
      have := hp.content i rfl
      simp only [Option.map_some, this]
      rfl
  have hren : ∀ a b, Op.rename a b ∈ backupFiles chunks mapName mapPieces revName revTmp revPieces → a ≠ b := by
    intro a b hm
    have hchunk : ∀ t u (p : List Bytes), Op.rename a b ∈ chunkFlush t u p → a = u ∧ b = t := by
      intro t u p h; simpa [chunkFlush] using h
    unfold backupFiles at hm
    rcases List.mem_append.1 hm with hm | hm
    · rcases List.mem_append.1 hm with hm | hm
      · rcases List.mem_append.1 hm with hm | hm
        · obtain ⟨l, hl, hm⟩ := List.mem_flatten.1 hm
          obtain ⟨c, hc, rfl⟩ := List.mem_map.1 hl
          obtain ⟨h1, h2⟩ := hchunk _ _ _ hm
          rw [h1, h2]; exact (hn.tmps c hc c hc).symm
        · simp [mappingFlush] at hm
      · simp [safeFile] at hm
        rw [hm.1, hm.2]; exact hn.revTmp.2.2
    · simp at hm
  have hall : ∀ m, absRun (backupFiles chunks mapName mapPieces revName revTmp revPieces) fs.read m =
      if m = revTmp then none else if m = revName then some revPieces.flatten else if m = mapName then some mapPieces.flatten
      else absRun (chunks.map (fun c => chunkFlush c.target c.tmp c.pieces)).flatten fs.read m := by
    intro m
    unfold backupFiles
    rw [absRun_append, absRun_append, absRun_append]
    generalize absRun (chunks.map (fun c => chunkFlush c.target c.tmp c.pieces)).flatten fs.read = r
    have h1 : ∀ m, absRun (mappingFlush mapName mapPieces) r m = if m = mapName then some mapPieces.flatten else r m := by
      intro m
      unfold mappingFlush
      rw [List.cons_append, show ∀ o l r, absRun (o :: l) r = absRun l (Op.abs r o) from fun _ _ _ => rfl, absRun_append]
      show absRun (mapPieces.map (.append mapName)) _ m = _
      rw [absRun_appends mapName mapPieces _ [] (by simp [Op.abs])]
      split
      · simp
      · rename_i hne; simp [Op.abs, hne]
    have h2 : ∀ r m, absRun (safeFile revName revTmp ⟨revPieces, false, false, false⟩) r m =
        if m = revTmp then none else if m = revName then some revPieces.flatten else r m := by
      intro r m
      have := absRun_chunk hn.revTmp.2.2.symm revPieces r m
      rw [← this]
      simp only [safeFile, chunkFlush, Bool.false_eq_true, if_false]
      rw [List.cons_append, List.cons_append, show ∀ o l r, absRun (o :: l) r = absRun l (Op.abs r o) from fun _ _ _ => rfl,
        show ∀ o l r, absRun (o :: l) r = absRun l (Op.abs r o) from fun _ _ _ => rfl, absRun_append, absRun_append]
      rfl
    show absRun (safeFile revName revTmp ⟨revPieces, false, false, false⟩) _ m = _
    rw [h2, h1]
  have hfin := (run_abs _ hw hren).2
  obtain ⟨c1, c2⟩ := absRun_chunks chunks hn.targets hn.tmps fs.read
  refine ⟨?_, ?_, ?_⟩
  · intro c hc
    rw [hread, hfin, hall, if_neg (hn.revTmp.1 c hc).symm, if_neg (hn.rev c hc).1.symm, if_neg (hn.map c hc).1.symm]
    exact c1 c hc
  · rw [hread, hfin, hall, if_neg hn.revTmp.2.1.symm, if_neg hn.mapRev, if_pos rfl]
  · rw [hread, hfin, hall, if_neg hn.revTmp.2.2.symm, if_pos rfl]

/-- The name is bound to a file of its own, or to none. -/
def Own (fs : Fs) (n m : String) : Prop :=
  ∀ i, fs.names m = some i → i < fs.next ∧ ∀ b, (b = fs.names n ∨ b ∈ fs.past n) → b ≠ some i

theorem Holds.chunkFlush {fs : Fs} {n m target tmp : String} {A : Option Bytes → Prop} (h : Holds fs n A) (ho : Own fs n m)
    (hn1 : n ≠ target) (hn2 : n ≠ tmp) (hm1 : m ≠ target) (hm2 : m ≠ tmp) (pieces : List Bytes) :
    Always (fun fs => Holds fs n A) (chunkFlush target tmp pieces) fs ∧
    Holds (run (chunkFlush target tmp pieces) fs) n A ∧ Own (run (chunkFlush target tmp pieces) fs) n m := by
  obtain ⟨h1, h2⟩ := h.create hn2
  obtain ⟨h3, h4, h5⟩ := Holds.appends pieces h1 h2
  have hkeep : ∀ (l : List Bytes) (g : Fs), (∀ x, (run (l.map (.append tmp)) g).names x = g.names x) ∧
      (∀ x, (run (l.map (.append tmp)) g).past x = g.past x) ∧ (run (l.map (.append tmp)) g).next = g.next := by
    intro l
    induction l with
    | nil => intro g; exact ⟨fun _ => rfl, fun _ => rfl, rfl⟩
    | cons p l ih =>
      intro g
      obtain ⟨i1, i2, i3⟩ := ih (Op.apply g (.append tmp p))
      have : (∀ x, (Op.apply g (.append tmp p)).names x = g.names x) ∧ (∀ x, (Op.apply g (.append tmp p)).past x = g.past x) ∧
          (Op.apply g (.append tmp p)).next = g.next := by
        simp only [Op.apply]
        split <;> exact ⟨fun _ => rfl, fun _ => rfl, rfl⟩
      exact ⟨fun x => (i1 x).trans (this.1 x), fun x => (i2 x).trans (this.2.1 x), i3.trans this.2.2⟩
  obtain ⟨k1, k2, k3⟩ := hkeep pieces (Op.apply fs (.create tmp))
  have hlast : Holds (Op.apply (run (pieces.map (.append tmp)) (Op.apply fs (.create tmp))) (.rename tmp target)) n A := by
    intro b hb
    simp only [Op.apply.eq_5, Fs.bind, if_neg hn1, if_neg hn2] at hb ⊢
    exact h4 b hb
  have hrun : run (Fs.chunkFlush target tmp pieces) fs =
      Op.apply (run (pieces.map (.append tmp)) (Op.apply fs (.create tmp))) (.rename tmp target) := by
    unfold Fs.chunkFlush
    rw [List.cons_append, run_cons, run_append]; rfl
  refine ⟨⟨h, h3.append ⟨h4, hlast⟩⟩, by rw [hrun]; exact hlast, ?_⟩
  rw [hrun]
  intro i hi
  simp only [Op.apply.eq_5, Fs.bind, if_neg hm1, if_neg hm2, if_neg hn1, if_neg hn2, k1, k2, k3] at hi ⊢
  simp only [Op.apply.eq_1, Fs.create, Fs.bind, Fs.put, if_neg hm2, if_neg hn2] at hi ⊢
  obtain ⟨o1, o2⟩ := ho i hi
  exact ⟨by omega, o2⟩

theorem Holds.chunkFlushes {n m : String} {A : Option Bytes → Prop} (chunks : List ChunkWrite) : ∀ {fs : Fs}, Holds fs n A →
    Own fs n m → (∀ c ∈ chunks, n ≠ c.target ∧ n ≠ c.tmp) → (∀ c ∈ chunks, m ≠ c.target ∧ m ≠ c.tmp) →
    Always (fun fs => Holds fs n A) (chunks.map (fun c => Fs.chunkFlush c.target c.tmp c.pieces)).flatten fs ∧
    Holds (run (chunks.map (fun c => Fs.chunkFlush c.target c.tmp c.pieces)).flatten fs) n A ∧
    Own (run (chunks.map (fun c => Fs.chunkFlush c.target c.tmp c.pieces)).flatten fs) n m := by
  induction chunks with
  | nil => intro fs h ho _ _; exact ⟨h, h, ho⟩
  | cons c l ih =>
    intro fs h ho hn hm
    obtain ⟨a1, a2, a3⟩ := h.chunkFlush ho (hn c (by simp)).1 (hn c (by simp)).2 (hm c (by simp)).1 (hm c (by simp)).2 c.pieces
    obtain ⟨b1, b2, b3⟩ := ih a2 a3 (fun d hd => hn d (by simp [hd])) (fun d hd => hm d (by simp [hd]))
    simp only [List.map_cons, List.flatten_cons, run_append]
    exact ⟨a1.append b1, b2, b3⟩

/-- **C44** (`_partial`: before the metadata is replaced) If the power fails at any time before the rename of the complete
metadata, the old metadata is on disk: the revision is not complete. -/
theorem C44_before_rename_partial (fs : Fs) (chunks : List ChunkWrite) (mapName revName revTmp : String)
    (mapPieces revPieces : List Bytes) (hn : Names chunks mapName revName revTmp) (old : Option Bytes)
    (hold : Durable fs revName old) (hown : Own fs revName mapName) (k : Nat)
    (hk : k + 2 ≤ (backupFiles chunks mapName mapPieces revName revTmp revPieces).length) (fs' : Fs)
    (hp : AfterPowerLoss (run ((backupFiles chunks mapName mapPieces revName revTmp revPieces).take k) fs) fs') :
    fs'.read revName = old := by
  obtain ⟨a1, a2, a3⟩ := Holds.chunkFlushes (n := revName) (m := mapName) chunks hold.holds hown hn.rev hn.map
  have hmap : Always (fun fs => Holds fs revName (· = old)) (mappingFlush mapName mapPieces)
      (run (chunks.map (fun c => Fs.chunkFlush c.target c.tmp c.pieces)).flatten fs) ∧
      Holds (run (mappingFlush mapName mapPieces) (run (chunks.map (fun c => Fs.chunkFlush c.target c.tmp c.pieces)).flatten fs)) revName (· = old) := by
    generalize run (chunks.map (fun c => Fs.chunkFlush c.target c.tmp c.pieces)).flatten fs = g at *
    have hcre : Holds (Op.apply g (.truncate mapName)) revName (· = old) ∧
        ∃ t, Tmp (Op.apply g (.truncate mapName)) revName mapName t [] := by
      simp only [Op.apply]
      cases hm : g.names mapName with
      | none =>
        have := a2.create (tmp := mapName) hn.mapRev.symm
        exact ⟨this.1, _, this.2⟩
      | some i =>
        obtain ⟨o1, o2⟩ := a3 i hm
        refine ⟨?_, i, ⟨hm, o1, by simp [Fs.put], o2⟩⟩
        intro b hb
        have h1 := a2 b hb
        have h2 := o2 b hb
        cases b with
        | none => exact h1
        | some j =>
          have hj : j ≠ i := fun he => h2 (by rw [he])
          exact ⟨h1.1, by simp [Fs.put, hj, h1.2.1], by simpa [Fs.put, hj] using h1.2.2⟩
    obtain ⟨c1, t, c2⟩ := hcre
    obtain ⟨d1, d2, d3⟩ := Holds.appends mapPieces c1 c2
    obtain ⟨e1, _, _⟩ := d2.fsync d3
    unfold mappingFlush
    rw [List.cons_append, run_cons, run_append]
    exact ⟨⟨a2, d1.append ⟨d2, e1⟩⟩, e1⟩
  obtain ⟨m1, m2⟩ := hmap
  obtain ⟨s1, _⟩ := m2.safeFile (n := revName) (tmp := revTmp) hn.revTmp.2.2.symm ⟨revPieces, false, false, true⟩
    (by simp [Block.ok])
  have hall := (a1.append m1).append (by rw [run_append]; exact s1)
  have htake : (backupFiles chunks mapName mapPieces revName revTmp revPieces).take k =
      ((chunks.map (fun c => Fs.chunkFlush c.target c.tmp c.pieces)).flatten ++ mappingFlush mapName mapPieces ++
        safeFile revName revTmp ⟨revPieces, false, false, true⟩).take k := by
    have e : backupFiles chunks mapName mapPieces revName revTmp revPieces =
        ((chunks.map (fun c => Fs.chunkFlush c.target c.tmp c.pieces)).flatten ++ mappingFlush mapName mapPieces ++
        safeFile revName revTmp ⟨revPieces, false, false, true⟩) ++ [.rename revTmp revName, .sync] := by
      simp [backupFiles, safeFile]
    rw [e] at hk ⊢
    rw [List.take_append_of_le_length]
    simp only [List.length_append, List.length_cons, List.length_nil] at hk ⊢
    omega
  rw [htake] at hp
  exact (hall.take k).power hp

/-- **C44** is false of the code: chunk files are not synchronised before the metadata of the complete revision is, so a power loss
before `os.sync()` finishes can leave a complete revision whose chunk data is lost. -/
theorem C44_false_before_sync : ∃ (fs fs' : Fs) (c : ChunkWrite) (k : Nat), WF fs ∧ Names [c] "a" "a.rev" "tmp2" ∧
    AfterPowerLoss (run ((backupFiles [c] "a" [[8]] "a.rev" "tmp2" [[9]]).take k) fs) fs' ∧
    fs'.read "a.rev" = some [9] ∧ fs'.read "a" = some [8] ∧ c.pieces.flatten = [1, 2, 3] ∧ fs'.read c.target = some [] := by
  refine ⟨emptyFs, { run ((backupFiles [⟨"0.chunk", "tmp1", [[1, 2, 3]]⟩] "a" [[8]] "a.rev" "tmp2" [[9]]).take 10) emptyFs with
      content := fun i => if i = 0 then [] else
        (run ((backupFiles [⟨"0.chunk", "tmp1", [[1, 2, 3]]⟩] "a" [[8]] "a.rev" "tmp2" [[9]]).take 10) emptyFs).content i },
    ⟨"0.chunk", "tmp1", [[1, 2, 3]]⟩, 10, ⟨by simp [emptyFs], by simp [emptyFs]⟩, ?_, ⟨?_, ?_⟩, by decide, by decide, by decide, by decide⟩
  · constructor <;> simp
  · intro n; exact .inl rfl
  · intro i hi
    by_cases h0 : i = 0
    · subst h0
      have : (run ((backupFiles [⟨"0.chunk", "tmp1", [[1, 2, 3]]⟩] "a" [[8]] "a.rev" "tmp2" [[9]]).take 10) emptyFs).dirty 0 = true := by
        decide
      rw [this] at hi; cases hi
    · simp [h0]

/-! ### The theorems of this file applied -/

/-- A durable file. -/
def exDisk : Fs := run [.create "a.rev", .append "a.rev" [1, 2], .sync] emptyFs

theorem exDisk_durable : Durable exDisk "a.rev" (some [1, 2]) :=
  ⟨rfl, by simp [exDisk, run, Op.apply], by intro i _; rfl, by
    intro i hi
    have : (some 0 : Option Nat) = some i := hi
    cases this; decide⟩

/-- C43_crash_atomic: a crash in the second of two replacements. -/
example := C43_crash_atomic exDisk "a.rev" _ exDisk_durable
  [("tmp1", ⟨[[3], [4]], false, false, false⟩), ("tmp2", ⟨[[3]], true, false, false⟩)] (by simp) 7

/-- C43_result_partial -/
example := (C43_result_partial exDisk "a.rev" "tmp1" (by decide) _ exDisk_durable ⟨[[3], [4]], false, false, false⟩).1 rfl

theorem exDisk_names (n : String) : exDisk.names n = if n = "a.rev" then some 0 else none := by
  simp [exDisk, run, Op.apply, Fs.create, Fs.bind, Fs.put, emptyFs]

theorem exDisk_wf : WF exDisk := by
  refine ⟨fun n i h => ?_, fun a b i ha hb => ?_⟩
  · rw [exDisk_names] at h
    split at h
    · cases h; decide
    · cases h
  · rw [exDisk_names] at ha hb
    split at ha <;> split at hb
    · rename_i h1 h2; rw [h1, h2]
    · cases hb
    · cases ha
    · cases ha

/-- C45_chunk_file_atomic_partial: a chunk file written in two pieces, cut after the second system call. -/
example := C45_chunk_file_atomic_partial exDisk exDisk_wf "chunks/aa/bb.chunk.lzo" "tmp1" (by decide) [[3], [4]] 2

theorem exNames : Names [⟨"c1", "t1", [[3], [4]]⟩, ⟨"c2", "t2", [[5]]⟩] "a" "a.rev" "t3" :=
  ⟨by decide, by decide, by decide, by decide, by decide, by decide⟩

/-- C44_before_rename_partial: a backup of two chunks over an older record of the same revision; the power fails while the mapping
file is written. -/
example (fs' : Fs) := C44_before_rename_partial exDisk [⟨"c1", "t1", [[3], [4]]⟩, ⟨"c2", "t2", [[5]]⟩] "a" "a.rev" "t3" [[6], [7]] [[8]]
  exNames _ exDisk_durable (fun i h => by rw [exDisk_names] at h; cases h) 9 (by decide) fs'

end Verif.Fs
