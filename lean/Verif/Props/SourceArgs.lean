import Verif.Model.SourceArgs
/-!
# C94: the program of the source gets what `backy restore` was asked for
-/
namespace Verif.SourceArgs
open Verif Verif.Backend

/-! ## Specification -/

/-- The word starts with a dash and is not just a dash. -/
def Dashed (s : String) : Prop := ∃ c cs, s.toList = '-' :: c :: cs

/-- What `backy restore` was asked for in a repository of this type: the target of a file source is a path. -/
def Asked : Kind → Given → Args → Prop
  | .rbd, .rbd b t, a => a = .rbd b t
  | .file, .rbd _ t, a => a = .file (pathStr t)
  | .file, .file t, a => a = .file (pathStr t)
  | _, _, _ => False

/-! ## Lemmas -/

theorem word_plain {known : Bool} {s : String} (h : ¬ Dashed s) : word known s = .positional := by
  unfold word
  split
  · rfl
  · rfl
  · rename_i hs; exact absurd ⟨_, _, hs⟩ h
  · rename_i cs h1 _ hs
    cases cs with
    | nil => exact absurd rfl h1
    | cons c cs => exact absurd ⟨_, _, hs⟩ h
  · rfl

theorem parse_pos {known : Bool} {n : Nat} {w : String} {rest pos : List String} {b : Backend} {bad : Bool}
    (hw : word known w = .positional) (hp : pos.length < n) :
    parse known n (w :: rest) pos b bad = parse known n rest (pos ++ [w]) b bad := by
  conv => lhs; unfold parse
  simp only [hw, hp, if_true]

theorem parse_backend {n : Nat} {w v : String} {rest pos : List String} {b c : Backend} {bad : Bool}
    (hw : word true w = .backend none) (hv : word true v = .positional) (hb : Backend.parse v = .ok c) :
    parse true n (w :: v :: rest) pos b bad = parse true n rest pos c bad := by
  conv => lhs; unfold parse
  simp only [hw, hv, hb, if_true]

theorem word_backend : word true "--backend" = .backend none := by decide +kernel

theorem word_value (known : Bool) (b : Backend) : word known b.value = .positional := by
  cases known <;> cases b <;> decide +kernel

theorem parse_value (b : Backend) : Backend.parse b.value = .ok b := by cases b <;> decide +kernel

/-- What becomes of the last word. -/
theorem parse_last (known : Bool) (u t : String) (b : Backend) :
    parse known 2 [t] [u] b false =
      match word known t with
      | .positional => .ok [u, t] b
      | .help => .help
      | _ => .usage := by
  unfold parse
  cases word known t with
  | positional => simp [parse]
  | help => rfl
  | wrong => rfl
  | unknown => simp [parse]
  | rest => simp
  | backend v =>
    cases v with
    | none => rfl
    | some v =>
      dsimp only
      cases Backend.parse v with
      | error e => rfl
      | ok b => simp [parse]

theorem receive_rbd (u t : String) (b : Backend) (hu : ¬ Dashed u) :
    receive .rbd (command u (.rbd b t)) =
      match word true t with
      | .positional => .inr ⟨u, .rbd b t⟩
      | .help => .inl 0
      | _ => .inl 2 := by
  have h : parse true 2 (command u (.rbd b t)) [] .auto false = parse true 2 [t] [u] b false := by
    show parse true 2 [u, "--backend", b.value, t] [] .auto false = _
    rw [parse_pos (word_plain hu) (by decide), parse_backend word_backend (word_value true b) (parse_value b), List.nil_append]
  unfold receive
  simp only [h, parse_last]
  cases word true t <;> rfl

theorem receive_file (u t : String) (hu : ¬ Dashed u) :
    receive .file (command u (.file t)) =
      match word false t with
      | .positional => .inr ⟨u, .file (pathStr t)⟩
      | .help => .inl 0
      | _ => .inl 2 := by
  have h : parse false 2 (command u (.file t)) [] .auto false = parse false 2 [t] [u] .auto false := by
    show parse false 2 [u, t] [] .auto false = _
    rw [parse_pos (word_plain hu) (by decide), List.nil_append]
  unfold receive
  simp only [h, parse_last]
  cases word false t <;> rfl

/-! ### Paths -/

theorem splitSlash_ne (s : List Char) : splitSlash s ≠ [] := by
  cases s with
  | nil => simp [splitSlash]
  | cons c cs =>
    simp only [splitSlash]
    split
    · simp
    · split <;> simp

theorem splitSlash_append (p : List Char) (hp : '/' ∉ p) (s : List Char) : splitSlash (p ++ '/' :: s) = p :: splitSlash s := by
  induction p with
  | nil => simp [splitSlash]
  | cons c p ih =>
    rw [List.mem_cons, not_or] at hp
    rw [List.cons_append, splitSlash, if_neg (fun h => hp.1 h.symm), ih hp.2]

theorem splitSlash_plain (p : List Char) (hp : '/' ∉ p) : splitSlash p = [p] := by
  induction p with
  | nil => rfl
  | cons c p ih =>
    rw [List.mem_cons, not_or] at hp
    rw [splitSlash, if_neg (fun h => hp.1 h.symm), ih hp.2]

theorem splitSlash_no_slash : ∀ (s p : List Char), p ∈ splitSlash s → '/' ∉ p
  | [], p, h => by
    simp only [splitSlash, List.mem_singleton] at h; subst h; simp
  | c :: cs, p, h => by
    simp only [splitSlash] at h
    split at h
    · rcases List.mem_cons.1 h with rfl | h
      · simp
      · exact splitSlash_no_slash cs p h
    · rename_i hc
      have ih := splitSlash_no_slash cs
      split at h
      · rename_i he; exact absurd he (splitSlash_ne cs)
      · rename_i q qs he
        rw [he] at ih
        rcases List.mem_cons.1 h with rfl | h
        · rw [List.mem_cons, not_or]
          exact ⟨fun e => hc e.symm, ih q (by simp)⟩
        · exact ih p (by simp [h])

theorem split_join : ∀ (l : List (List Char)), l ≠ [] → (∀ p ∈ l, '/' ∉ p) → splitSlash (joinSlash l) = l
  | [], h, _ => absurd rfl h
  | [p], _, h => splitSlash_plain p (h p (by simp))
  | p :: q :: l, _, h => by
    rw [joinSlash, splitSlash_append p (h p (by simp)), split_join (q :: l) (by simp) (fun x hx => h x (by simp [hx]))]
    simp

theorem mem_parts {s p : List Char} (h : p ∈ parts s) : '/' ∉ p ∧ p ≠ [] ∧ p ≠ ['.'] := by
  unfold parts at h
  rw [List.mem_filter] at h
  simp only [ne_eq, decide_not, Bool.and_eq_true, Bool.not_eq_eq_eq_not, Bool.not_true, decide_eq_false_iff_not] at h
  exact ⟨splitSlash_no_slash s p h.1, h.2.1, h.2.2⟩

theorem parts_join (l : List (List Char)) (h : ∀ p ∈ l, '/' ∉ p ∧ p ≠ [] ∧ p ≠ ['.']) : parts (joinSlash l) = l := by
  cases l with
  | nil => rfl
  | cons p l =>
    unfold parts
    rw [split_join (p :: l) (by simp) (fun x hx => (h x hx).1), List.filter_eq_self]
    intro x hx
    simp [(h x hx).2.1, (h x hx).2.2]

theorem parts_slash (s : List Char) : parts ('/' :: s) = parts s := by
  simp [parts, splitSlash]

theorem rootOf_join (l : List (List Char)) (h : ∀ p ∈ l, '/' ∉ p ∧ p ≠ [] ∧ p ≠ ['.']) :
    ∀ c cs, joinSlash l = c :: cs → c ≠ '/' := by
  intro c cs he
  cases l with
  | nil => simp [joinSlash] at he
  | cons p l =>
    obtain ⟨h1, h2, _⟩ := h p (by simp)
    cases p with
    | nil => exact absurd rfl h2
    | cons d p =>
      have : c = d := by
        cases l with
        | nil => simp only [joinSlash, List.cons.injEq] at he; exact he.1.symm
        | cons q l => simp only [joinSlash, List.cons_append, List.cons.injEq] at he; exact he.1.symm
      rw [this]
      intro e
      exact h1 (by rw [e]; simp)

theorem rootOf_cases (s : List Char) : rootOf s = [] ∨ rootOf s = ['/'] ∨ rootOf s = ['/', '/'] := by
  unfold rootOf
  split <;> simp

theorem rootOf_none {s : List Char} (h : ∀ c cs, s = c :: cs → c ≠ '/') : rootOf s = [] := by
  unfold rootOf
  split
  · exact absurd rfl (h _ _ rfl)
  · exact absurd rfl (h _ _ rfl)
  · exact absurd rfl (h _ _ rfl)
  · rfl

/-- The normal form of a path is a path to the same place: the same root and the same components. -/
theorem pathChars_same (s : List Char) : rootOf (pathChars s) = rootOf s ∧ parts (pathChars s) = parts s := by
  have hp : ∀ p ∈ parts s, '/' ∉ p ∧ p ≠ [] ∧ p ≠ ['.'] := fun p h => mem_parts h
  have hj := parts_join (parts s) hp
  have hr := rootOf_join (parts s) hp
  unfold pathChars
  split
  · rename_i h
    rw [h.1, h.2]
    decide
  · rcases rootOf_cases s with h | h | h
    · rw [h, List.nil_append]
      exact ⟨rootOf_none hr, hj⟩
    · rw [h]
      refine ⟨?_, by rw [List.singleton_append, parts_slash, hj]⟩
      cases he : joinSlash (parts s) with
      | nil => rfl
      | cons c cs =>
        have hc := hr c cs he
        show rootOf ('/' :: c :: cs) = _
        unfold rootOf
        split
        · rename_i heq; simp only [List.cons.injEq] at heq; exact absurd heq.2.1 hc
        · rename_i heq; simp only [List.cons.injEq] at heq; exact absurd heq.2.1 hc
        · rfl
        · rename_i h1 h2 h3; exact absurd rfl (h3 _)
    · rw [h]
      refine ⟨?_, by rw [List.cons_append, List.singleton_append, parts_slash, parts_slash, hj]⟩
      cases he : joinSlash (parts s) with
      | nil => rfl
      | cons c cs =>
        have hc := hr c cs he
        show rootOf ('/' :: '/' :: c :: cs) = _
        unfold rootOf
        split
        · rename_i heq; simp only [List.cons.injEq] at heq; exact absurd heq.2.2.1 hc
        · rfl
        · rename_i h1 h2; simp only [List.cons.injEq, true_and] at h2; exact absurd h2.symm (h1 _)
        · rename_i h1 h2 h3; exact absurd rfl (h3 _)

theorem pathStr_idem (s : String) : pathStr (pathStr s) = pathStr s := by
  unfold pathStr
  rw [String.toList_ofList]
  obtain ⟨h1, h2⟩ := pathChars_same s.toList
  generalize hq : pathChars s.toList = q at h1 h2 ⊢
  rw [show pathChars q = q by
    conv => rhs; rw [← hq]
    unfold pathChars
    rw [h1, h2]]

/-! ## C94 -/

/-- **C94** Whatever the target is, in every kind of repository: if the program restores anything, then it restores the
revision that `backy` has selected, with the backend and to the target that were given, and nothing else. -/
theorem C94_nothing_else (k : Kind) (u : String) (hu : ¬ Dashed u) (g : Given) (j : Job) (h : request k u g = .ok (.inr j)) :
    j.uuid = u ∧ Asked k g j.args := by
  unfold request at h
  cases k with
  | rbd =>
    cases g with
    | rbd b t =>
      simp only [fromGiven, receive_rbd u t b hu, Except.ok.injEq] at h
      split at h
      · cases h; exact ⟨rfl, rfl⟩
      · cases h
      · cases h
    | nothing => cases h
    | file t => cases h
    | s3 => cases h
  | file =>
    cases g with
    | rbd b t =>
      simp only [fromGiven, receive_file u t hu, Except.ok.injEq] at h
      split at h
      · cases h; exact ⟨rfl, rfl⟩
      · cases h
      · cases h
    | file t =>
      simp only [fromGiven, receive_file u (pathStr t) hu, Except.ok.injEq] at h
      split at h
      · cases h; exact ⟨rfl, by show Args.file _ = _; rw [pathStr_idem]⟩
      · cases h
      · cases h
    | nothing => cases h
    | s3 => cases h
  | s3 =>
    cases g <;> simp [fromGiven, receive] at h

/-- **C94** Restoring an RBD image works for every target that does not start with a dash, and for `-` (standard output). -/
theorem C94_rbd (u t : String) (b : Backend) (hu : ¬ Dashed u) (ht : ¬ Dashed t) :
    request .rbd u (.rbd b t) = .ok (.inr ⟨u, .rbd b t⟩) := by
  unfold request
  simp only [fromGiven, receive_rbd u t b hu, word_plain ht]

/-- **C94** Restoring a file works for every target whose normal form does not start with a dash; the normal form leads to
the same place as what was given. -/
theorem C94_file (u t : String) (hu : ¬ Dashed u) (ht : ¬ Dashed (pathStr t)) :
    request .file u (.file t) = .ok (.inr ⟨u, .file (pathStr t)⟩) ∧
    rootOf (pathStr t).toList = rootOf t.toList ∧ parts (pathStr t).toList = parts t.toList := by
  refine ⟨?_, ?_⟩
  · unfold request
    simp only [fromGiven, receive_file u (pathStr t) hu, word_plain ht, pathStr_idem]
  · unfold pathStr
    rw [String.toList_ofList]
    exact pathChars_same _

/-- The number of slashes at the start. -/
def leading (s : List Char) : Nat := (s.takeWhile (fun c => decide (c = '/'))).length

theorem leading_append (l : List Char) (h : ∀ c cs, l = c :: cs → c ≠ '/') : leading l = 0 ∧ leading ('/' :: l) = 1 ∧ leading ('/' :: '/' :: l) = 2 := by
  cases l with
  | nil => decide
  | cons c cs =>
    have hc := h c cs rfl
    simp [leading, hc]

/-- **C94** The normal form of a target is absolute if and only if the target is, and keeps exactly two leading slashes, as POSIX wants. -/
theorem C94_slashes (t : String) :
    leading (pathStr t).toList = if leading t.toList = 2 then 2 else min 1 (leading t.toList) := by
  unfold pathStr
  rw [String.toList_ofList]
  generalize t.toList = s
  have hr := rootOf_join (parts s) (fun p h => mem_parts h)
  obtain ⟨h0, h1, h2⟩ := leading_append _ hr
  have hroot : leading (pathChars s) = (rootOf s).length := by
    unfold pathChars
    split
    · rename_i h; rw [h.1]; decide
    · rcases rootOf_cases s with h | h | h <;> rw [h]
      · exact h0
      · exact h1
      · exact h2
  rw [hroot]
  unfold rootOf
  split
  · simp [leading]
  · rename_i rest h3
    have := (leading_append rest (fun c cs hc => by rintro rfl; exact h3 cs (by rw [hc]))).2.2
    rw [this]; rfl
  · rename_i rest h3 h4
    have := (leading_append rest (fun c cs hc => by rintro rfl; exact h4 cs (by rw [hc]))).2.1
    rw [this]; rfl
  · rename_i h3 h4 h5
    have := (leading_append s (fun c cs hc => by rintro rfl; exact h5 cs hc)).1
    rw [this]; rfl

/-- In particular for every absolute target. -/
theorem C94_file_absolute (u t : String) (hu : ¬ Dashed u) (ht : ∃ cs, t.toList = '/' :: cs) :
    request .file u (.file t) = .ok (.inr ⟨u, .file (pathStr t)⟩) := by
  refine (C94_file u t hu ?_).1
  rintro ⟨c, cs, h⟩
  obtain ⟨ds, hd⟩ := ht
  have hr : rootOf t.toList ≠ [] := by
    rw [hd]
    unfold rootOf
    split
    · simp
    · simp
    · simp
    · rename_i h3; exact absurd rfl (h3 _)
  have h1 : rootOf (pathStr t).toList ≠ [] := by
    rw [(by unfold pathStr; rw [String.toList_ofList]; exact (pathChars_same _).1 : rootOf (pathStr t).toList = rootOf t.toList)]
    exact hr
  rw [h] at h1
  exact h1 rfl

/-- **C94** If the given arguments are not those of a target for the type of the repository, nothing is started. -/
theorem C94_wrong_type (u t : String) : request .rbd u .nothing = .error .key ∧ request .rbd u (.file t) = .error .key ∧
    request .rbd u .s3 = .error .key ∧ request .file u .nothing = .error .key ∧ request .file u .s3 = .error .key :=
  ⟨rfl, rfl, rfl, rfl, rfl⟩

/-- **C94** A repository on S3 is never restored, and never with exit code 0. -/
theorem C94_s3_never (u : String) (g : Given) (x : Nat ⊕ Job) (h : request .s3 u g = .ok x) : ∃ n, x = .inl n ∧ n ≠ 0 := by
  unfold request at h
  cases hg : fromGiven .s3 g with
  | error e => rw [hg] at h; cases h
  | ok a =>
    rw [hg] at h
    cases h
    exact ⟨1, rfl, by decide⟩

example := C94_s3_never "u" .s3 (.inl 1) rfl

/-- **C94** If an RBD image is not restored for lack of understanding, the exit code is 2 - except that the program takes some
targets that start with a dash for a request for help and exits with 0. -/
theorem C94_not_understood (u t : String) (b : Backend) (hu : ¬ Dashed u) (n : Nat) (h : request .rbd u (.rbd b t) = .ok (.inl n)) :
    Dashed t ∧ (n = 2 ∨ n = 0 ∧ word true t = .help) := by
  refine ⟨?_, ?_⟩
  · refine Classical.byContradiction fun ht => ?_
    rw [C94_rbd u t b hu ht] at h
    cases h
  · unfold request at h
    simp only [fromGiven, receive_rbd u t b hu, Except.ok.injEq] at h
    split at h
    · cases h
    · rename_i hw; cases h; exact .inr ⟨rfl, hw⟩
    · cases h; exact .inl rfl

/-- **C94** The exception: restoring to the file `-h` of the working directory, written with a leading dot and slash, reports success (exit code 0) and has restored nothing. -/
theorem C94_help_is_success : request .file "u" (.file "./-h") = .ok (.inl 0) ∧ request .rbd "u" (.rbd .auto "--help") = .ok (.inl 0) := by
  decide +kernel

/-- Ordinary uses. -/
example : ¬ Dashed "3nc2kbVhvAyiJXjHbWSJuT" ∧ ¬ Dashed "/dev/rbd/rbd/test" ∧ ¬ Dashed "-" ∧ ¬ Dashed (pathStr "/srv//restore/./x.img") ∧
    Dashed "-h" ∧ pathStr "/srv//restore/./x.img" = "/srv/restore/x.img" := by
  have key : ∀ s : String, (match s.toList with | '-' :: _ :: _ => true | _ => false) = false → ¬ Dashed s := by
    rintro s h ⟨c, cs, hs⟩
    rw [hs] at h
    cases h
  refine ⟨key _ (by decide +kernel), key _ (by decide +kernel), key _ (by decide +kernel), key _ (by decide +kernel),
    ⟨'h', [], by decide +kernel⟩, by decide +kernel⟩

/-! ### The theorems of this file applied -/

/-- A word whose first character is not a dash. -/
theorem notDashed {s : String} (h : (match s.toList with | '-' :: _ :: _ => true | _ => false) = false) : ¬ Dashed s := by
  rintro ⟨c, cs, hs⟩
  rw [hs] at h
  cases h

/-- C94_nothing_else, C94_rbd, C94_file, C94_file_absolute, C94_not_understood -/
example := C94_nothing_else .rbd "3nc2kbVhvAyiJXjHbWSJuT" (notDashed (by decide +kernel)) (.rbd .auto "-") _
  (C94_rbd "3nc2kbVhvAyiJXjHbWSJuT" "-" .auto (notDashed (by decide +kernel)) (notDashed (by decide +kernel)))
example := C94_file "3nc2kbVhvAyiJXjHbWSJuT" "/srv//restore/./x.img" (notDashed (by decide +kernel)) (notDashed (by decide +kernel))
example := C94_file_absolute "3nc2kbVhvAyiJXjHbWSJuT" "/srv//restore/./x.img" (notDashed (by decide +kernel)) ⟨"srv//restore/./x.img".toList, by decide +kernel⟩
example := C94_not_understood "u" "--help" .auto (notDashed (by decide +kernel)) 0 C94_help_is_success.2

end Verif.SourceArgs
