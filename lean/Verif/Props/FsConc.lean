import Verif.Model.FsConc
import Verif.Props.Crash
/-!
# C102: metadata is never half written
-/
namespace Verif.Fs
open Verif

/-- A binding the name has or may have after a power loss. -/
def Bound (fs : Fs) (n : String) (i : Nat) : Prop := fs.names n = some i ∨ some i ∈ fs.past n

/-- The files whose content or state on disk a system call changes. -/
def Op.writes (fs : Fs) (i : Nat) : Op → Prop
  | .create _ => fs.next ≤ i
  | .truncate n | .append n _ | .fsync n => fs.names n = some i ∨ fs.next ≤ i
  | _ => False

theorem apply_names (fs : Fs) (op : Op) (m : String) (hm : m ∉ op.touches) : (Op.apply fs op).names m = fs.names m := by
  cases op with
  | create n => simp only [Op.touches, List.mem_singleton] at hm; simp [Op.apply, Fs.create, Fs.bind, Fs.put, hm]
  | truncate n =>
    simp only [Op.touches, List.mem_singleton] at hm
    simp only [Op.apply]
    cases fs.names n <;> simp [Fs.create, Fs.bind, Fs.put, hm]
  | append n b => simp only [Op.apply]; cases fs.names n <;> rfl
  | fsync n => simp only [Op.apply]; cases fs.names n <;> rfl
  | rename a b =>
    simp only [Op.touches, List.mem_cons, List.not_mem_nil, or_false, not_or] at hm
    simp [Op.apply, Fs.bind, hm.1, hm.2]
  | unlink n => simp only [Op.touches, List.mem_singleton] at hm; simp [Op.apply, Fs.bind, hm]
  | sync => rfl

theorem apply_past (fs : Fs) (op : Op) (m : String) (hm : m ∉ op.touches) : ∀ b ∈ (Op.apply fs op).past m, b ∈ fs.past m := by
  cases op with
  | create n => simp only [Op.touches, List.mem_singleton] at hm; simp [Op.apply, Fs.create, Fs.bind, Fs.put, hm]
  | truncate n =>
    simp only [Op.touches, List.mem_singleton] at hm
    simp only [Op.apply]
    cases fs.names n <;> simp [Fs.create, Fs.bind, Fs.put, hm]
  | append n b => simp only [Op.apply]; cases fs.names n <;> exact fun _ h => h
  | fsync n => simp only [Op.apply]; cases fs.names n <;> exact fun _ h => h
  | rename a b =>
    simp only [Op.touches, List.mem_cons, List.not_mem_nil, or_false, not_or] at hm
    simp [Op.apply, Fs.bind, hm.1, hm.2]
  | unlink n => simp only [Op.touches, List.mem_singleton] at hm; simp [Op.apply, Fs.bind, hm]
  | sync => intro b hb; cases hb

theorem apply_content (fs : Fs) (op : Op) (i : Nat) (hi : ¬ op.writes fs i) : (Op.apply fs op).content i = fs.content i := by
  cases op with
  | create n =>
    have : i ≠ fs.next := by intro h; exact hi (by rw [Op.writes]; omega)
    simp [Op.apply, Fs.create, Fs.bind, Fs.put, this]
  | truncate n =>
    have h1 : i ≠ fs.next := by intro h; exact hi (.inr (by omega))
    have h2 : fs.names n ≠ some i := fun h => hi (.inl h)
    simp only [Op.apply]
    cases hn : fs.names n with
    | none => simp [Fs.create, Fs.bind, Fs.put, h1]
    | some j =>
      have : i ≠ j := by rintro rfl; exact h2 hn
      simp [Fs.put, this]
  | append n b =>
    have h2 : fs.names n ≠ some i := fun h => hi (.inl h)
    simp only [Op.apply]
    cases hn : fs.names n with
    | none => rfl
    | some j =>
      have : i ≠ j := by rintro rfl; exact h2 hn
      simp [Fs.put, this]
  | fsync n => simp only [Op.apply]; cases fs.names n <;> rfl
  | rename a b => rfl
  | unlink n => rfl
  | sync => rfl

theorem apply_dirty (fs : Fs) (op : Op) (i : Nat) (hi : ¬ op.writes fs i) (hd : fs.dirty i = false) :
    (Op.apply fs op).dirty i = false := by
  cases op with
  | create n =>
    have : i ≠ fs.next := by intro h; exact hi (by rw [Op.writes]; omega)
    simp [Op.apply, Fs.create, Fs.bind, Fs.put, this, hd]
  | truncate n =>
    have h1 : i ≠ fs.next := by intro h; exact hi (.inr (by omega))
    have h2 : fs.names n ≠ some i := fun h => hi (.inl h)
    simp only [Op.apply]
    cases hn : fs.names n with
    | none => simp [Fs.create, Fs.bind, Fs.put, h1, hd]
    | some j =>
      have : i ≠ j := by rintro rfl; exact h2 hn
      simp [Fs.put, this, hd]
  | append n b =>
    have h2 : fs.names n ≠ some i := fun h => hi (.inl h)
    simp only [Op.apply]
    cases hn : fs.names n with
    | none => exact hd
    | some j =>
      have : i ≠ j := by rintro rfl; exact h2 hn
      simp [Fs.put, this, hd]
  | fsync n =>
    simp only [Op.apply]
    cases fs.names n with
    | none => exact hd
    | some j => simp only; split <;> simp [hd]
  | rename a b => exact hd
  | unlink n => exact hd
  | sync => rfl

theorem apply_next (fs : Fs) (op : Op) : fs.next ≤ (Op.apply fs op).next := by
  cases op with
  | create n => simp [Op.apply, Fs.create, Fs.bind, Fs.put]
  | truncate n => simp only [Op.apply]; cases fs.names n <;> simp [Fs.create, Fs.bind, Fs.put]
  | append n b => simp only [Op.apply]; cases fs.names n <;> simp [Fs.put]
  | fsync n => simp only [Op.apply]; cases fs.names n <;> simp
  | rename a b => simp [Op.apply, Fs.bind]
  | unlink n => simp [Op.apply, Fs.bind]
  | sync => simp [Op.apply]

theorem bound_create {fs : Fs} {n m : String} {i : Nat} (h : Bound (Fs.create fs n) m i) :
    Bound fs m i ∨ (m = n ∧ i = fs.next) := by
  unfold Bound Fs.create Fs.bind Fs.put at h
  by_cases hm : m = n
  · subst hm
    simp only [if_true, List.mem_cons] at h
    rcases h with h | h | h
    · right; exact ⟨rfl, by simpa using h.symm⟩
    · exact .inl (.inl h.symm)
    · exact .inl (.inr h)
  · simp only [if_neg hm] at h
    exact .inl h

/-- New bindings of a name: to a file another name of the system call is bound to, or to a new file. -/
theorem apply_bound {fs : Fs} {op : Op} {m : String} {i : Nat} (h : Bound (Op.apply fs op) m i) :
    Bound fs m i ∨ (m ∈ op.touches ∧ ((∃ m' ∈ op.touches, Bound fs m' i) ∨ (i = fs.next ∧ i < (Op.apply fs op).next))) := by
  cases op with
  | create n =>
    rcases bound_create h with h | ⟨h1, h2⟩
    · exact .inl h
    · exact .inr ⟨by simp [Op.touches, h1], .inr ⟨h2, by simp [h2, Op.apply, Fs.create, Fs.bind, Fs.put]⟩⟩
  | truncate n =>
    simp only [Op.apply] at h ⊢
    cases hn : fs.names n with
    | none =>
      rw [hn] at h
      rcases bound_create h with h | ⟨h1, h2⟩
      · exact .inl h
      · exact .inr ⟨by simp [Op.touches, h1], .inr ⟨h2, by simp [h2, Fs.create, Fs.bind, Fs.put]⟩⟩
    | some j => rw [hn] at h; exact .inl h
  | append n b => simp only [Op.apply] at h; left; revert h; cases fs.names n <;> exact fun h => h
  | fsync n => simp only [Op.apply] at h; left; revert h; cases fs.names n <;> exact fun h => h
  | rename a b =>
    simp only [Op.apply, Bound, Fs.bind] at h
    by_cases ha : m = a
    · subst ha
      simp only [if_true, List.mem_cons] at h
      right
      refine ⟨by simp [Op.touches], .inl ?_⟩
      rcases h with h | h | h
      · cases h
      · by_cases hb : m = b
        · simp only [hb, if_true] at h
          exact ⟨m, by simp [Op.touches], .inl (by rw [hb]; exact h.symm)⟩
        · simp only [hb, if_false] at h
          exact ⟨m, by simp [Op.touches], .inl h.symm⟩
      · by_cases hb : m = b
        · simp only [hb, if_true, List.mem_cons] at h
          rcases h with h | h
          · exact ⟨b, by simp [Op.touches], .inl h.symm⟩
          · exact ⟨b, by simp [Op.touches], .inr h⟩
        · simp only [hb, if_false] at h
          exact ⟨m, by simp [Op.touches], .inr h⟩
    · simp only [if_neg ha] at h
      by_cases hb : m = b
      · subst hb
        simp only [if_true, List.mem_cons] at h
        right
        refine ⟨by simp [Op.touches], .inl ?_⟩
        rcases h with h | h | h
        · exact ⟨a, by simp [Op.touches], .inl h⟩
        · exact ⟨m, by simp [Op.touches], .inl h.symm⟩
        · exact ⟨m, by simp [Op.touches], .inr h⟩
      · simp only [if_neg hb] at h
        exact .inl h
  | unlink n =>
    simp only [Op.apply, Bound, Fs.bind] at h
    left
    by_cases hm : m = n
    · subst hm
      simp only [if_true, List.mem_cons] at h
      rcases h with h | h | h
      · cases h
      · exact .inl h.symm
      · exact .inr h
    · simp only [if_neg hm] at h; exact h
  | sync =>
    rcases h with h | h
    · exact .inl (.inl h)
    · cases h

/-! ## The invariant -/

/-- The system calls of a block after writing and after `fsync`. -/
def commit (n tmp : String) (b : Block) : List Op :=
  if b.raises then [.unlink tmp] else if b.renameFails then [] else [.rename tmp n]

def finish (n tmp : String) (b : Block) : List Op := if b.syncFails then [] else .fsync tmp :: commit n tmp b

theorem safeFile_tail (n tmp : String) (b : Block) : (safeFile n tmp b).tail = b.pieces.map (.append tmp) ++ finish n tmp b := rfl

/-- How far a process is: part of the data is written, or all of it and it is on disk. -/
inductive Phase (fs : Fs) (tmp : String) (x : Writer) (t : Nat) : Prop
  | writing (rest : List Bytes) (hc : fs.content t ++ rest.flatten = x.block.pieces.flatten)
      (hl : x.left = rest.map (.append tmp) ++ finish x.target tmp x.block)
  | synced (hc : fs.content t = x.block.pieces.flatten) (hd : fs.dirty t = false) (hl : x.left = commit x.target tmp x.block)

/-- The temporary file of a process is a file of its own. -/
structure Own' (fs : Fs) (tmp : String) (t : Nat) : Prop where
  bound : fs.names tmp = some t
  other : ∀ m, m ≠ tmp → ¬ Bound fs m t

/-- No two processes have the same temporary file. -/
def Apart (busy : Nat → Option Writer) : Prop :=
  ∀ p q x y, busy p = some x → busy q = some y → x.left ≠ [] → y.left ≠ [] → x.tmp = y.tmp → p = q

structure Inv (kind : String → Kind) (w : World) : Prop where
  metadata : ∀ n, kind n = .metadata → Holds w.fs n (fun c => ∀ b, c = some b → (n, b) ∈ w.done)
  lt : ∀ n i, Bound w.fs n i → i < w.fs.next
  sep : ∀ n m i, kind n = .data → kind m ≠ .data → Bound w.fs n i → ¬ Bound w.fs m i
  apart : Apart w.busy
  busy : ∀ p x, w.busy p = some x → x.left ≠ [] → kind x.tmp = .temp ∧ kind x.target = .metadata ∧
    ∃ t, Own' w.fs x.tmp t ∧ Phase w.fs x.tmp x t

theorem holds_apply {fs : Fs} {n : String} {A : Option Bytes → Prop} (h : Holds fs n A) (op : Op) (hn : n ∉ op.touches)
    (hw : ∀ i, Bound fs n i → ¬ op.writes fs i) : Holds (Op.apply fs op) n A := by
  intro b hb
  have hb' : b = fs.names n ∨ b ∈ fs.past n := by
    rcases hb with hb | hb
    · exact .inl (hb.trans (apply_names fs op n hn))
    · exact .inr (apply_past fs op n hn b hb)
  have := h b hb'
  cases b with
  | none => exact this
  | some i =>
    have hi : ¬ op.writes fs i := hw i (by
      rcases hb' with h | h
      · exact .inl h.symm
      · exact .inr h)
    obtain ⟨h1, h2, h3⟩ := this
    exact ⟨Nat.lt_of_lt_of_le h1 (apply_next fs op), apply_dirty fs op i hi h2, by rw [apply_content fs op i hi]; exact h3⟩

theorem phase_apply {fs : Fs} {tmp : String} {x : Writer} {t : Nat} (h : Phase fs tmp x t) (op : Op) (hw : ¬ op.writes fs t) :
    Phase (Op.apply fs op) tmp x t := by
  cases h with
  | writing rest hc hl => exact .writing rest (by rw [apply_content fs op t hw]; exact hc) hl
  | synced hc hd hl => exact .synced (by rw [apply_content fs op t hw]; exact hc) (apply_dirty fs op t hw hd) hl

theorem own_apply {fs : Fs} {tmp : String} {t : Nat} (h : Own' fs tmp t) (hlt : t < fs.next) (op : Op) (hn : tmp ∉ op.touches) :
    Own' (Op.apply fs op) tmp t := by
  refine ⟨(apply_names fs op tmp hn).trans h.bound, fun m hm hb => ?_⟩
  rcases apply_bound hb with hb | ⟨_, ⟨m', hm', hb⟩ | ⟨hb, _⟩⟩
  · exact h.other m hm hb
  · exact h.other m' (fun he => hn (he ▸ hm')) hb
  · omega

theorem Inv.lt_apply {kind : String → Kind} {w : World} (h : Inv kind w) (op : Op) :
    ∀ n i, Bound (Op.apply w.fs op) n i → i < (Op.apply w.fs op).next := by
  intro n i hb
  have hn := apply_next w.fs op
  rcases apply_bound hb with hb | ⟨_, ⟨m', _, hb⟩ | ⟨_, hb⟩⟩
  · exact Nat.lt_of_lt_of_le (h.lt n i hb) hn
  · exact Nat.lt_of_lt_of_le (h.lt m' i hb) hn
  · exact hb

/-- A system call whose names are all of one side. -/
theorem Inv.sep_apply {kind : String → Kind} {w : World} (h : Inv kind w) (op : Op)
    (hk : (∀ n ∈ op.touches, kind n = .data) ∨ ∀ n ∈ op.touches, kind n ≠ .data) :
    ∀ n m i, kind n = .data → kind m ≠ .data → Bound (Op.apply w.fs op) n i → ¬ Bound (Op.apply w.fs op) m i := by
  intro n m i hn hm b1 b2
  have key : ∀ k, Bound (Op.apply w.fs op) k i → Bound w.fs k i ∨ (k ∈ op.touches ∧ ((∃ m' ∈ op.touches, Bound w.fs m' i) ∨ i = w.fs.next)) := by
    intro k hb
    rcases apply_bound hb with hb | ⟨h1, h2 | ⟨h2, _⟩⟩
    · exact .inl hb
    · exact .inr ⟨h1, .inl h2⟩
    · exact .inr ⟨h1, .inr h2⟩
  rcases hk with hk | hk
  · have b2' : Bound w.fs m i := by
      rcases key m b2 with h | ⟨h, _⟩
      · exact h
      · exact absurd (hk m h) hm
    rcases key n b1 with b1 | ⟨_, ⟨m', hm', b1⟩ | rfl⟩
    · exact h.sep n m i hn hm b1 b2'
    · exact h.sep m' m i (hk m' hm') hm b1 b2'
    · exact absurd (h.lt m _ b2') (by omega)
  · have b1' : Bound w.fs n i := by
      rcases key n b1 with h | ⟨h, _⟩
      · exact h
      · exact absurd hn (hk n h)
    rcases key m b2 with b2 | ⟨_, ⟨m', hm', b2⟩ | rfl⟩
    · exact h.sep n m i hn hm b1' b2
    · exact h.sep n m' i hn (hk m' hm') b1' b2
    · exact absurd (h.lt n _ b1') (by omega)

/-- A metadata file is not written to by a system call on the temporary file of a process. -/
theorem metadata_tmp {kind : String → Kind} {w : World} (h : Inv kind w) {tmp : String} {t : Nat} (ho : Own' w.fs tmp t)
    (hk : kind tmp = .temp) {n : String} (hn : kind n = .metadata) {i : Nat} (hb : Bound w.fs n i) :
    ¬ (w.fs.names tmp = some i ∨ w.fs.next ≤ i) := by
  rintro (he | he)
  · rw [ho.bound] at he
    cases he
    exact ho.other n (by rintro rfl; rw [hn] at hk; cases hk) hb
  · exact absurd (h.lt n i hb) (by omega)

theorem setWriter_inv {busy : Nat → Option Writer} {tmp tmp' : Nat} {y : Option Writer} {x : Writer}
    (h : setWriter busy tmp y tmp' = some x) : (tmp' = tmp ∧ y = some x) ∨ (tmp' ≠ tmp ∧ busy tmp' = some x) := by
  rw [setWriter] at h
  by_cases he : tmp' = tmp
  · rw [if_pos he] at h; exact .inl ⟨he, h⟩
  · rw [if_neg he] at h; exact .inr ⟨he, h⟩

theorem Apart.set {busy : Nat → Option Writer} (h : Apart busy) {pid : Nat} {x : Writer} (hx : busy pid = some x) (hl : x.left ≠ [])
    (l : List Op) : Apart (setWriter busy pid (some { x with left := l })) := by
  intro p q y z hy hz hly hlz he
  rcases setWriter_inv hy with ⟨hp, hy⟩ | ⟨hp, hy⟩ <;> rcases setWriter_inv hz with ⟨hq, hz⟩ | ⟨hq, hz⟩
  · exact hp.trans hq.symm
  · cases hy; rw [hp]; exact h _ _ x z hx hz hl hlz he
  · cases hz; rw [hq]; exact h _ _ y x hy hx hly hl he
  · exact h p q y z hy hz hly hlz he

theorem Inv.start {kind : String → Kind} {w : World} (h : Inv kind w) (pid : Nat) (n tmp : String) (b : Block)
    (hn : kind n = .metadata) (ht : kind tmp = .temp) (hf : w.fs.names tmp = none) :
    Inv kind ⟨Op.apply w.fs (.create tmp), setWriter w.busy pid (some ⟨tmp, n, b, (safeFile n tmp b).tail⟩), w.done⟩ := by
  have hfree : ∀ q y, w.busy q = some y → y.left ≠ [] → y.tmp ≠ tmp := by
    intro q y hy hl he
    obtain ⟨_, _, t, ho, _⟩ := h.busy q y hy hl
    rw [← he, ho.bound] at hf
    cases hf
  have hap : Apart (setWriter w.busy pid (some ⟨tmp, n, b, (safeFile n tmp b).tail⟩)) := by
    intro p q y z hy hz hly hlz he
    rcases setWriter_inv hy with ⟨hp, hy⟩ | ⟨hp, hy⟩ <;> rcases setWriter_inv hz with ⟨hq, hz⟩ | ⟨hq, hz⟩
    · exact hp.trans hq.symm
    · cases hy; exact absurd he.symm (hfree q z hz hlz)
    · cases hz; exact absurd he (hfree p y hy hly)
    · exact h.apart p q y z hy hz hly hlz he
  have hto : ∀ m, kind m ≠ .temp → m ∉ (Op.create tmp).touches := by
    intro m hm hc
    rw [Op.touches, List.mem_singleton] at hc
    rw [hc] at hm; exact hm ht
  refine ⟨fun m hm => ?_, h.lt_apply (.create tmp), h.sep_apply (.create tmp) (.inr (fun m hm => ?_)), hap, fun tmp' x hx hl => ?_⟩
  · refine holds_apply (h.metadata m hm) _ (hto m (by rw [hm]; decide)) (fun i hb hw => ?_)
    have : w.fs.next ≤ i := hw
    exact absurd (h.lt m i hb) (by omega)
  · rw [Op.touches, List.mem_singleton] at hm
    rw [hm, ht]; decide
  · rcases setWriter_inv hx with ⟨_, hx⟩ | ⟨hne, hx⟩
    · cases hx
      refine ⟨ht, hn, w.fs.next, ⟨by simp [Op.apply, Fs.create, Fs.bind, Fs.put], fun m hm hb => ?_⟩, ?_⟩
      · rcases bound_create hb with hb | ⟨hb, _⟩
        · exact absurd (h.lt m _ hb) (by omega)
        · exact hm hb
      · refine .writing b.pieces ?_ (safeFile_tail n tmp b)
        simp [Op.apply, Fs.create, Fs.bind, Fs.put]
    · obtain ⟨h1, h2, t, h3, h4⟩ := h.busy tmp' x hx hl
      have hlt := h.lt x.tmp t (.inl h3.bound)
      refine ⟨h1, h2, t, own_apply h3 hlt _ (by rw [Op.touches, List.mem_singleton]; exact hfree tmp' x hx hl), phase_apply h4 (.create tmp) (fun hw => ?_)⟩
      have : w.fs.next ≤ t := hw
      omega

/-- The other processes when one gives a system call on its temporary file. -/
theorem Inv.others {kind : String → Kind} {w : World} (h : Inv kind w) {tmp : String} {t : Nat} (ho : Own' w.fs tmp t) (op : Op)
    (ht : ∀ m ∈ op.touches, m = tmp ∨ kind m = .metadata) (hw : ∀ i, op.writes w.fs i → i = t ∨ w.fs.next ≤ i)
    (p : Nat) (x : Writer) (hne : x.tmp ≠ tmp) (hx : w.busy p = some x) (hl : x.left ≠ []) :
    kind x.tmp = .temp ∧ kind x.target = .metadata ∧ ∃ t, Own' (Op.apply w.fs op) x.tmp t ∧ Phase (Op.apply w.fs op) x.tmp x t := by
  obtain ⟨h1, h2, t', h3, h4⟩ := h.busy p x hx hl
  have hlt := h.lt x.tmp t' (.inl h3.bound)
  refine ⟨h1, h2, t', own_apply h3 hlt _ (fun hc => ?_), phase_apply h4 _ (fun hc => ?_)⟩
  · rcases ht x.tmp hc with h | h
    · exact hne h
    · rw [h1] at h; cases h
  · rcases hw t' hc with rfl | h
    · exact ho.other x.tmp hne (.inl h3.bound)
    · omega

theorem Inv.append {kind : String → Kind} {w : World} (h : Inv kind w) {pid : Nat} {x : Writer} {t : Nat} {p : Bytes}
    {rest : List Bytes} (hx : w.busy pid = some x) (hlx : x.left ≠ []) (hk : kind x.tmp = .temp) (hm : kind x.target = .metadata) (ho : Own' w.fs x.tmp t)
    (hc : w.fs.content t ++ (p :: rest).flatten = x.block.pieces.flatten) :
    Inv kind ⟨Op.apply w.fs (.append x.tmp p), setWriter w.busy pid (some ⟨x.tmp, x.target, x.block, rest.map (.append x.tmp) ++
      finish x.target x.tmp x.block⟩), w.done⟩ := by
  have hto : ∀ m ∈ (Op.append x.tmp p).touches, m = x.tmp := fun m hm => by simpa [Op.touches] using hm
  refine ⟨fun m hm => ?_, h.lt_apply (.append x.tmp p), h.sep_apply (.append x.tmp p) (.inr (fun m hm => ?_)), h.apart.set hx hlx _, fun q y hy hl => ?_⟩
  · refine holds_apply (h.metadata m hm) _ (fun hc => ?_) (fun i hb => metadata_tmp h ho hk hm hb)
    rw [hto m hc, hk] at hm; cases hm
  · rw [hto m hm, hk]; decide
  · rcases setWriter_inv hy with ⟨_, hy⟩ | ⟨hne, hy⟩
    · cases hy
      refine ⟨hk, hm, t, ⟨?_, fun m hm hb => ?_⟩, .writing rest ?_ rfl⟩
      · simp only [Op.apply, ho.bound]; exact ho.bound
      · simp only [Op.apply, ho.bound] at hb; exact ho.other m hm hb
      · simp only [Op.apply, ho.bound, Fs.put, if_true]
        rw [List.append_assoc]
        exact hc
    · refine h.others ho _ (fun m hm => .inl (hto m hm)) (fun i hi => ?_) q y (fun he => hne (h.apart q pid y x hy hx hl hlx he)) hy hl
      rcases hi with hi | hi
      · rw [ho.bound] at hi; cases hi; exact .inl rfl
      · exact .inr hi

theorem Inv.fsync {kind : String → Kind} {w : World} (h : Inv kind w) {pid : Nat} {x : Writer} {t : Nat}
    (hx : w.busy pid = some x) (hlx : x.left ≠ []) (hk : kind x.tmp = .temp) (hm : kind x.target = .metadata) (ho : Own' w.fs x.tmp t)
    (hc : w.fs.content t = x.block.pieces.flatten) :
    Inv kind ⟨Op.apply w.fs (.fsync x.tmp), setWriter w.busy pid (some { x with left := commit x.target x.tmp x.block }), w.done⟩ := by
  have hto : ∀ m ∈ (Op.fsync x.tmp).touches, m = x.tmp := fun m hm => by simpa [Op.touches] using hm
  refine ⟨fun m hm => ?_, h.lt_apply (.fsync x.tmp), h.sep_apply (.fsync x.tmp) (.inr (fun m hm => ?_)), h.apart.set hx hlx _, fun q y hy hl => ?_⟩
  · refine holds_apply (h.metadata m hm) _ (fun hc => ?_) (fun i hb => metadata_tmp h ho hk hm hb)
    rw [hto m hc, hk] at hm; cases hm
  · rw [hto m hm, hk]; decide
  · rcases setWriter_inv hy with ⟨_, hy⟩ | ⟨hne, hy⟩
    · cases hy
      refine ⟨hk, hm, t, ⟨?_, fun m hm hb => ?_⟩, .synced ?_ ?_ rfl⟩
      · simp only [Op.apply, ho.bound]
      · simp only [Op.apply, ho.bound] at hb; exact ho.other m hm hb
      · simp only [Op.apply, ho.bound]; exact hc
      · simp only [Op.apply, ho.bound, if_true]
    · refine h.others ho _ (fun m hm => .inl (hto m hm)) (fun i hi => ?_) q y (fun he => hne (h.apart q pid y x hy hx hl hlx he)) hy hl
      rcases hi with hi | hi
      · rw [ho.bound] at hi; cases hi; exact .inl rfl
      · exact .inr hi

theorem Inv.discard {kind : String → Kind} {w : World} (h : Inv kind w) {pid : Nat} {x : Writer} {t : Nat}
    (hx : w.busy pid = some x) (hlx : x.left ≠ []) (hk : kind x.tmp = .temp) (ho : Own' w.fs x.tmp t) :
    Inv kind ⟨Op.apply w.fs (.unlink x.tmp), setWriter w.busy pid (some { x with left := [] }), w.done⟩ := by
  have hto : ∀ m ∈ (Op.unlink x.tmp).touches, m = x.tmp := fun m hm => by simpa [Op.touches] using hm
  refine ⟨fun m hm => ?_, h.lt_apply (.unlink x.tmp), h.sep_apply (.unlink x.tmp) (.inr (fun m hm => ?_)), h.apart.set hx hlx _, fun q y hy hl => ?_⟩
  · refine holds_apply (h.metadata m hm) (.unlink x.tmp) (fun hc => ?_) (fun i hb hc => hc)
    rw [hto m hc, hk] at hm; cases hm
  · rw [hto m hm, hk]; decide
  · rcases setWriter_inv hy with ⟨_, he⟩ | ⟨hne, hy⟩
    · exact absurd (by rw [← Option.some.inj he]) hl
    · exact h.others ho (.unlink x.tmp) (fun m hm => .inl (hto m hm)) (fun i hi => hi.elim) q y (fun he => hne (h.apart q pid y x hy hx hl hlx he)) hy hl

theorem Inv.rename {kind : String → Kind} {w : World} (h : Inv kind w) {pid : Nat} {x : Writer} {t : Nat}
    (hx : w.busy pid = some x) (hlx : x.left ≠ []) (hk : kind x.tmp = .temp) (hm : kind x.target = .metadata) (ho : Own' w.fs x.tmp t)
    (hc : w.fs.content t = x.block.pieces.flatten) (hd : w.fs.dirty t = false) :
    Inv kind ⟨Op.apply w.fs (.rename x.tmp x.target), setWriter w.busy pid (some { x with left := [] }),
      (x.target, x.block.pieces.flatten) :: w.done⟩ := by
  have hto : ∀ m ∈ (Op.rename x.tmp x.target).touches, m = x.tmp ∨ m = x.target := fun m hm => by simpa [Op.touches] using hm
  have hne : x.target ≠ x.tmp := by intro he; rw [he, hk] at hm; cases hm
  have hlt := h.lt x.tmp t (.inl ho.bound)
  refine ⟨fun m hmk => ?_, h.lt_apply (.rename x.tmp x.target), h.sep_apply (.rename x.tmp x.target) (.inr (fun m hmk => ?_)), h.apart.set hx hlx _, fun q y hy hl => ?_⟩
  · have hmono : Holds w.fs m (fun c => ∀ b, c = some b → (m, b) ∈ (x.target, x.block.pieces.flatten) :: w.done) :=
      (h.metadata m hmk).mono (fun c hc b hb => .tail _ (hc b hb))
    by_cases hmt : m = x.target
    · subst hmt
      refine Holds.rename hmono (t := t) (c := x.block.pieces.flatten) ⟨ho.bound, hlt, hc, ?_⟩ hd hne ?_
      · rintro b (rfl | hb) he
        · exact ho.other _ hne (.inl he)
        · rw [he] at hb; exact ho.other _ hne (.inr hb)
      · intro b hb; cases hb; exact .head _
    · refine holds_apply hmono (.rename x.tmp x.target) (fun hc => ?_) (fun i hb hc => hc)
      rcases hto m hc with rfl | rfl
      · rw [hk] at hmk; cases hmk
      · exact hmt rfl
  · rcases hto m hmk with rfl | rfl
    · rw [hk]; decide
    · rw [hm]; decide
  · rcases setWriter_inv hy with ⟨_, he⟩ | ⟨hne', hy⟩
    · exact absurd (by rw [← Option.some.inj he]) hl
    · refine h.others ho (.rename x.tmp x.target) (fun m hmm => ?_) (fun i hi => hi.elim) q y (fun he => hne' (h.apart q pid y x hy hx hl hlx he)) hy hl
      rcases hto m hmm with h | h
      · exact .inl h
      · exact .inr (by rw [h]; exact hm)

theorem Inv.go {kind : String → Kind} {w : World} (h : Inv kind w) (pid : Nat) (x : Writer) (op : Op) (rest : List Op)
    (hx : w.busy pid = some x) (hl : x.left = op :: rest) :
    Inv kind ⟨Op.apply w.fs op, setWriter w.busy pid (some { x with left := rest }), noteDone x op w.done⟩ := by
  have hlx : x.left ≠ [] := by rw [hl]; exact fun h => by cases h
  obtain ⟨hk, hm, t, ho, hp⟩ := h.busy pid x hx hlx
  have hcommit : w.fs.content t = x.block.pieces.flatten → w.fs.dirty t = false → commit x.target x.tmp x.block = op :: rest →
      Inv kind ⟨Op.apply w.fs op, setWriter w.busy pid (some { x with left := rest }), noteDone x op w.done⟩ := by
    intro hc hd he
    rw [commit] at he
    split at he
    · cases he; exact h.discard hx hlx hk ho
    · split at he
      · cases he
      · cases he; exact h.rename hx hlx hk hm ho hc hd
  cases hp with
  | synced hc hd hl' => exact hcommit hc hd (hl'.symm.trans hl)
  | writing ps hc hl' =>
    rw [hl] at hl'
    cases ps with
    | nil =>
      rw [List.map_nil, List.nil_append, finish] at hl'
      split at hl'
      · cases hl'
      · cases hl'
        exact h.fsync hx hlx hk hm ho (by simpa using hc)
    | cons p ps =>
      rw [List.map_cons, List.cons_append] at hl'
      cases hl'
      exact h.append hx hlx hk hm ho hc

theorem Inv.power {kind : String → Kind} {w : World} (h : Inv kind w) (fs' : Fs) (hp : Rebooted w.fs fs') :
    Inv kind ⟨fs', fun _ => none, w.done⟩ := by
  have hb : ∀ n i, Bound fs' n i → Bound w.fs n i := by
    rintro n i (hb | hb)
    · rcases hp.lost.names n with h | h
      · exact .inl (h ▸ hb)
      · exact .inr (hb ▸ h)
    · rw [hp.past] at hb; cases hb
  refine ⟨fun n hn b hb' => ?_, fun n i hi => ?_, fun n m i hn hm b1 b2 => ?_, (fun p q x y hx => by cases hx), fun tmp x hx => by cases hx⟩
  · have hold : b = w.fs.names n ∨ b ∈ w.fs.past n := by
      rcases hb' with rfl | hb'
      · exact hp.lost.names n
      · rw [hp.past] at hb'; cases hb'
    have := h.metadata n hn b hold
    cases b with
    | none => exact this
    | some i =>
      obtain ⟨h1, h2, h3⟩ := this
      refine ⟨by show i < fs'.next; rw [hp.next]; exact h1, hp.dirty i, ?_⟩
      show ∀ b, some (fs'.content i) = some b → _
      rw [hp.lost.content i h2]
      exact h3
  · show i < fs'.next
    rw [hp.next]
    exact h.lt n i (hb n i hi)
  · exact h.sep n m i hn hm (hb n i b1) (hb m i b2)

theorem Inv.step {kind : String → Kind} {w w' : World} (h : Inv kind w) (hs : Happens kind w w') : Inv kind w' := by
  cases hs with
  | start p n tmp b hp hn ht hf => exact h.start p n tmp b hn ht hf
  | go tmp x op rest hx hl => exact h.go tmp x op rest hx hl
  | killed tmp =>
    refine ⟨h.metadata, h.lt, h.sep, fun p q x y hx hy hl hl' he => ?_, fun tmp' x hx hl => ?_⟩
    · rcases setWriter_inv hx with ⟨_, hx⟩ | ⟨_, hx⟩
      · cases hx
      · rcases setWriter_inv hy with ⟨_, hy⟩ | ⟨_, hy⟩
        · cases hy
        · exact h.apart p q x y hx hy hl hl' he
    rcases setWriter_inv hx with ⟨_, hx⟩ | ⟨_, hx⟩
    · cases hx
    · exact h.busy tmp' x hx hl
  | remove n hn =>
    have hto : ∀ m ∈ (Op.unlink n).touches, m = n := fun m hm => by simpa [Op.touches] using hm
    refine ⟨fun m hm => ?_, h.lt_apply (.unlink n), h.sep_apply (.unlink n) (.inr (fun m hm => ?_)), h.apart, fun p x hx hl => ?_⟩
    · by_cases he : m = n
      · subst he
        intro b hb
        simp only [Op.apply, Fs.bind, if_true, List.mem_cons] at hb
        have := h.metadata m hm
        rcases hb with rfl | rfl | hb
        · intro b hb; cases hb
        · exact this _ (.inl rfl)
        · exact this b (.inr hb)
      · exact holds_apply (h.metadata m hm) (.unlink n) (fun hc => he (hto m hc)) (fun i hb hc => hc)
    · rw [hto m hm, hn]; decide
    · obtain ⟨h1, h2, t, h3, h4⟩ := h.busy p x hx hl
      refine ⟨h1, h2, t, own_apply h3 (h.lt x.tmp t (.inl h3.bound)) (.unlink n) (fun hc => ?_), phase_apply h4 (.unlink n) (fun hc => hc)⟩
      rw [hto x.tmp hc, hn] at h1; cases h1
  | data op hop =>
    have hw : ∀ m i, kind m ≠ .data → Bound w.fs m i → ¬ op.writes w.fs i := by
      intro m i hm hb hc
      have key : ∀ n ∈ op.touches, ¬ (w.fs.names n = some i ∨ w.fs.next ≤ i) := by
        rintro n hn (h1 | h1)
        · exact h.sep n m i (hop n hn) hm (.inl h1) hb
        · exact absurd (h.lt m i hb) (by omega)
      cases op with
      | create n => exact absurd (h.lt m i hb) (by have : w.fs.next ≤ i := hc; omega)
      | truncate n => exact key n (by simp [Op.touches]) hc
      | append n b => exact key n (by simp [Op.touches]) hc
      | fsync n => exact key n (by simp [Op.touches]) hc
      | _ => exact hc
    refine ⟨fun m hm => ?_, h.lt_apply _, h.sep_apply _ (.inl hop), h.apart, fun p x hx hl => ?_⟩
    · refine holds_apply (h.metadata m hm) _ (fun hc => ?_) (fun i hb => hw m i (by rw [hm]; decide) hb)
      rw [hop m hc] at hm; cases hm
    · obtain ⟨h1, h2, t, h3, h4⟩ := h.busy p x hx hl
      refine ⟨h1, h2, t, own_apply h3 (h.lt x.tmp t (.inl h3.bound)) _ (fun hc => ?_),
        phase_apply h4 _ (hw x.tmp t (by rw [h1]; decide) (.inl h3.bound))⟩
      rw [hop x.tmp hc] at h1; cases h1
  | power fs' hp => exact h.power fs' hp

/-- A file system on disk before anything happens: nothing unsynchronised, no file has two names. -/
structure Quiet (w : World) : Prop where
  busy : ∀ p, w.busy p = none
  past : ∀ n, w.fs.past n = []
  clean : ∀ i, w.fs.dirty i = false
  lt : ∀ n i, w.fs.names n = some i → i < w.fs.next
  alone : ∀ n m i, w.fs.names n = some i → w.fs.names m = some i → n = m
  done : ∀ n b, w.fs.read n = some b → (n, b) ∈ w.done

theorem Quiet.inv {kind : String → Kind} {w : World} (h : Quiet w) : Inv kind w := by
  have hb : ∀ n i, Bound w.fs n i → w.fs.names n = some i := by
    rintro n i (hb | hb)
    · exact hb
    · rw [h.past] at hb; cases hb
  refine ⟨fun n _ b hb' => ?_, fun n i hi => h.lt n i (hb n i hi), fun n m i hn hm b1 b2 => ?_, (fun p q x y hx => by rw [h.busy] at hx; cases hx), fun p x hx => ?_⟩
  · have hbn : b = w.fs.names n := by
      rcases hb' with h1 | h1
      · exact h1
      · rw [h.past] at h1; cases h1
    subst hbn
    cases hx : w.fs.names n with
    | none => intro b hb; cases hb
    | some i => exact ⟨h.lt n i hx, h.clean i, fun b hb => h.done n b (by rw [Fs.read, hx]; exact hb)⟩
  · have := h.alone n m i (hb n i b1) (hb m i b2)
    rw [this] at hn; exact hm hn
  · rw [h.busy] at hx; cases hx

theorem Reach.inv {kind : String → Kind} {w w' : World} (h : Reach kind w w') (hi : Inv kind w) : Inv kind w' := by
  induction h with
  | refl => exact hi
  | step _ h' ih => exact ih.step h'

/-- **C102**: however many processes write, replace and remove metadata files at the same time, however often they are killed and the
machine loses power, and whatever happens to files that are not metadata: a metadata file is not there, or has the complete content
of one of the writes that put a file under this name (or its content at the beginning). -/
theorem C102_never_half_written (kind : String → Kind) (w w' : World) (hq : Quiet w) (h : Reach kind w w') (n : String)
    (hn : kind n = .metadata) (b : Bytes) (hb : w'.fs.read n = some b) : (n, b) ∈ w'.done :=
  ((h.inv hq.inv).metadata n hn).read b hb

/-- The ghost `done` is what it is said to be: it grows exactly by the complete contents of writes at the moment of their rename. -/
theorem C102_done (kind : String → Kind) (w w' : World) (h : Happens kind w w') :
    w'.done = w.done ∨ ∃ p x, w.busy p = some x ∧ (∃ a b, x.left.head? = some (.rename a b)) ∧
      w'.done = (x.target, x.block.pieces.flatten) :: w.done := by
  cases h with
  | go tmp x op rest hx hl =>
    cases op with
    | rename a b => exact .inr ⟨tmp, x, hx, ⟨a, b, by rw [hl]; rfl⟩, rfl⟩
    | _ => exact .inl rfl
  | _ => exact .inl rfl

/-- **C102**: when the last system call of a write that does not raise is done, the file has the new content for every process, whatever
the others are doing. -/
theorem C102_visible_at_once (kind : String → Kind) (w w' : World) (hq : Quiet w) (h : Reach kind w w') (p : Nat) (a b : String)
    (x : Writer) (hx : w'.busy p = some x) (hl : x.left = [.rename a b]) :
    (Op.apply w'.fs (.rename a b)).read x.target = some x.block.pieces.flatten := by
  obtain ⟨hk, hm, t, ho, hp⟩ := (h.inv hq.inv).busy p x hx (by rw [hl]; exact fun h => by cases h)
  have hne : x.target ≠ x.tmp := by intro he; rw [he, hk] at hm; cases hm
  have key : w'.fs.content t = x.block.pieces.flatten → [Op.rename a b] = commit x.target x.tmp x.block →
      (Op.apply w'.fs (.rename a b)).read x.target = some x.block.pieces.flatten := by
    intro hc he
    rw [commit] at he
    split at he
    · cases he
    · split at he
      · cases he
      · cases he
        simp [Fs.read, Op.apply, Fs.bind, hne, ho.bound, hc]
  cases hp with
  | synced hc hd hl' => exact key hc (hl.symm.trans hl')
  | writing ps hc hl' =>
    rw [hl] at hl'
    cases ps with
    | nil =>
      rw [List.map_nil, List.nil_append, finish] at hl'
      split at hl' <;> cases hl'
    | cons p ps => cases hl'

/-! ## An example: two processes write the same revision file -/

def exKindC (n : String) : Kind := if n = "abc.rev" then .metadata else if n = "tmp1" then .temp else if n = "tmp2" then .temp else .data

/-- A revision file with content `[1]`. -/
def exBefore : World :=
  ⟨⟨fun n => if n = "abc.rev" then some 0 else none, fun i => if i = 0 then [1] else [], 1, fun _ => false, fun _ => []⟩,
    fun _ => none, [("abc.rev", [1])]⟩

def exBlockA : Block := ⟨[[2], [3]], false, false, false⟩
def exBlockB : Block := ⟨[[4]], false, false, false⟩

/-- A process opens its temporary file. -/
def World.open' (w : World) (p : Nat) (n tmp : String) (b : Block) : World :=
  ⟨Op.apply w.fs (.create tmp), setWriter w.busy p (some ⟨tmp, n, b, (safeFile n tmp b).tail⟩), w.done⟩

/-- The next system call of a process. -/
def World.go (w : World) (p : Nat) : World :=
  match w.busy p with
  | none => w
  | some x => match x.left with
    | [] => w
    | op :: rest => ⟨Op.apply w.fs op, setWriter w.busy p (some { x with left := rest }), noteDone x op w.done⟩

theorem Reach.go {kind : String → Kind} {a w : World} (h : Reach kind a w) (p : Nat) : Reach kind a (w.go p) := by
  rw [World.go]
  split
  · exact h
  · rename_i x hx
    split
    · exact h
    · rename_i op rest hl
      exact h.step (.go w p x op rest hx hl)

/-- Both processes are at work: `A` has written half of its data, `B` has synchronised its own. -/
def exMiddle : World :=
  (((((exBefore.open' 1 "abc.rev" "tmp1" exBlockA).go 1).open' 2 "abc.rev" "tmp2" exBlockB).go 2).go 2)

/-- `A` is killed, `B` renames. -/
def exAfter : World := World.go { exMiddle with busy := setWriter exMiddle.busy 1 none } 2

/-- The power fails and the rename is lost. -/
def exLost : World :=
  ⟨{ exAfter.fs with names := fun n => if n = "abc.rev" then some 0 else none, dirty := fun _ => false, past := fun _ => [] },
    fun _ => none, exAfter.done⟩

theorem exBefore_quiet : Quiet exBefore where
  busy := fun _ => rfl
  past := fun _ => rfl
  clean := fun _ => rfl
  lt := by
    intro n i h
    simp only [exBefore] at h ⊢
    split at h <;> cases h
    decide
  alone := by
    intro n m i hn hm
    simp only [exBefore] at hn hm
    split at hn
    · rename_i h1
      split at hm
      · rename_i h2; exact h1.trans h2.symm
      · cases hm
    · cases hn
  done := by
    intro n b h
    simp only [exBefore, Fs.read] at h ⊢
    split at h
    · rename_i h1
      cases h; rw [h1]; exact .head _
    · cases h

theorem exMiddle_reach : Reach exKindC exBefore exMiddle :=
  Reach.go (Reach.go (Reach.step (Reach.go (Reach.step (.refl _) (.start exBefore 1 "abc.rev" "tmp1" exBlockA rfl rfl rfl rfl)) 1)
    (.start _ 2 "abc.rev" "tmp2" exBlockB rfl rfl rfl rfl)) 2) 2

theorem exAfter_reach : Reach exKindC exBefore exAfter :=
  Reach.go (exMiddle_reach.step (.killed _ 1)) 2

/-- The hypotheses are met by a run in which both processes are in the middle of a write of the same file … -/
example : (exMiddle.busy 1).isSome ∧ (exMiddle.busy 2).isSome ∧ exMiddle.fs.read "abc.rev" = some [1] ∧
    exMiddle.fs.read "tmp1" = some [2] := by decide +kernel

example : exAfter.fs.read "abc.rev" = some [4] := by decide +kernel

/-- … and the file has the old content after the power loss. -/
example : Reach exKindC exBefore exLost ∧ exLost.fs.read "abc.rev" = some [1] := by
  refine ⟨exAfter_reach.step (.power exAfter exLost.fs ⟨⟨fun n => ?_, fun i _ => rfl⟩, rfl, fun _ => rfl, fun _ => rfl⟩), by decide +kernel⟩
  by_cases h : n = "abc.rev"
  · subst h; exact .inr (by decide +kernel)
  · by_cases h1 : n = "tmp1"
    · subst h1; exact .inr (by decide +kernel)
    · by_cases h2 : n = "tmp2"
      · subst h2; exact .inl (by decide +kernel)
      · refine .inl ?_
        simp [exLost, exAfter, exMiddle, exBefore, World.go, World.open', setWriter, Op.apply, Fs.create, Fs.bind, Fs.put, safeFile, exBlockA, exBlockB, h, h1, h2]

/-- Writing the file in place would break the property: the same system calls without a temporary file leave half of the data. -/
example : (run [.truncate "abc.rev", .append "abc.rev" [2]] exBefore.fs).read "abc.rev" = some [2] ∧
    ("abc.rev", [2]) ∉ exBefore.done := by decide +kernel

example := C102_never_half_written exKindC exBefore exAfter exBefore_quiet exAfter_reach "abc.rev" rfl [4] (by decide +kernel)
example := C102_done exKindC exMiddle { exMiddle with busy := setWriter exMiddle.busy 1 none } (.killed _ 1)

/-- C102_visible_at_once: the second of the two writers is about to rename. -/
example := C102_visible_at_once exKindC exBefore exMiddle exBefore_quiet exMiddle_reach 2 "tmp2" "abc.rev"
  ⟨"tmp2", "abc.rev", exBlockB, [.rename "tmp2" "abc.rev"]⟩ rfl rfl

end Verif.Fs
