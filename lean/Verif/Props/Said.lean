import Verif.Model.Said
import Verif.Props.Listing
import Verif.Props.Restorable
/-!
# What looking up revisions prints: C121 and C126
-/
namespace Verif.Said
open Verif Verif.Chunked Verif.Repo Verif.Commands Verif.Backup Verif.Files Verif.Spec

/-! ## Specification -/

/-- The text contains no range with a date: either no `..` at all, or no part of the text is a date (nor are `first` and `last`, which a range
means when an end is left out). -/
def NoDateRange (pd : String → Option Int) (spec : String) : Prop :=
  ¬ ['.', '.'] <:+: spec.toList ∨ (pd "first" = none ∧ pd "last" = none ∧ ∀ t : String, t.toList <:+: spec.toList → pd t = none)

/-! ## Parts of a text -/

theorem strip_infix (l : List Char) : strip l <:+: l := by
  unfold strip
  have h1 : (l.dropWhile Char.isWhitespace) <:+: l := (List.dropWhile_suffix _).isInfix
  have h2 : ((l.dropWhile Char.isWhitespace).reverse.dropWhile Char.isWhitespace) <:+: (l.dropWhile Char.isWhitespace).reverse :=
    (List.dropWhile_suffix _).isInfix
  have h3 := List.reverse_infix.2 h2
  rw [List.reverse_reverse] at h3
  exact h3.trans h1

theorem pushTok_mem {cur : List Char} {rest : List String} {t : String} (h : t ∈ pushTok cur rest) :
    t.toList <:+: cur ∨ t ∈ rest := by
  unfold pushTok at h
  split at h
  · exact .inr h
  · rcases List.mem_cons.1 h with h | h
    · subst h; rw [String.toList_ofList]; exact .inl (strip_infix _)
    · exact .inr h

theorem tokenizeAux_infix : ∀ (l cur : List Char) (t : String), t ∈ tokenizeAux l cur → t.toList <:+: cur ++ l := by
  intro l cur
  induction l, cur using tokenizeAux.induct with
  | case1 cur =>
    intro t h
    rcases pushTok_mem h with h | h
    · simpa using h
    · cases h
  | case2 l cur ih | case3 l cur ih | case4 l cur ih | case5 l cur ih =>
    intro t h
    rcases pushTok_mem h with h | h
    · exact h.trans (List.prefix_append _ _).isInfix
    · rcases List.mem_cons.1 h with h | h
      · subst h; exact ⟨cur, l, by simp⟩
      · have hi := ih t h
        rw [List.nil_append] at hi
        exact hi.trans ((List.suffix_cons _ _).trans (List.suffix_append _ _)).isInfix
  | case6 l cur ih =>
    intro t h
    rcases pushTok_mem h with h | h
    · exact h.trans (List.prefix_append _ _).isInfix
    · rcases List.mem_cons.1 h with h | h
      · subst h; exact ⟨cur, l, by simp⟩
      · refine (ih t h).trans ⟨cur ++ ['.', '.'], [], by simp⟩
  | case7 c l cur h1 h2 h3 h4 h5 ih =>
    intro t h
    rw [tokenizeAux] at h
    · have := ih t h
      simpa using this
    all_goals assumption

theorem tokenize_infix {s t : String} (h : t ∈ tokenize s) : t.toList <:+: s.toList := by
  have := tokenizeAux_infix s.toList [] t h
  simpa using this

/-! ## Nothing is printed -/

/-- All texts in the list are in `S`. -/
def Within (S : String → Prop) (l : List Tok) : Prop := ∀ s, Tok.str s ∈ l → S s

theorem Within.mono {S : String → Prop} {l l' : List Tok} (h : Within S l) (hs : l' ⊆ l) : Within S l' := fun s hm => h s (hs hm)

theorem Within.app {S : String → Prop} {a b : List Tok} (ha : Within S a) (hb : Within S b) : Within S (a ++ b) := by
  intro s hm
  rcases List.mem_append.1 hm with h | h
  · exact ha s h
  · exact hb s h

theorem Within.revs {S : String → Prop} {v : List Rev} : Within S [.revs v] := by
  intro s hm; simp at hm

theorem apply_within {S : String → Prop} {f : Fn} {H v : List Rev} {t : Tok} (h : f.apply H v = .ok t) : Within S [t] := by
  intro s hm
  simp only [List.mem_singleton] at hm
  subst hm
  cases f <;> simp only [Fn.apply] at h
  · cases hh : v.head? <;> rw [hh] at h <;> cases h
  · cases hh : v.getLast? <;> rw [hh] at h <;> cases h
  · cases h
  · cases h

theorem byToken_nil {c : Ctx} {S : String → Prop} (hS : ∀ s, S s → c.parseDate s = none) {t : Tok} (h : ∀ s, t = .str s → S s) :
    byToken c t = [] := by
  cases t with
  | str s => simp only [byToken, byDate, hS s (h s rfl)]
  | rev r => rfl
  | revs l => rfl

theorem headD_str {l : List Tok} {d s : String} (h : l.headD (.str d) = .str s) : Tok.str s ∈ l ∨ s = d := by
  cases l with
  | nil => exact .inr (by simpa using h.symm)
  | cons a l => exact .inl (by simp at h; simp [h])

theorem range_nil {c : Ctx} {S : String → Prop} (hS : ∀ s, S s → c.parseDate s = none) (h1 : S "first") (h2 : S "last") {a b : List Tok}
    (ha : Within S a) (hb : Within S b) : range c a b = [] := by
  have e1 : byToken c (a.headD (.str "first")) = [] := byToken_nil hS (fun s h => by
    rcases headD_str h with h | h
    · exact ha s h
    · exact h ▸ h1)
  have e2 : byToken c (b.headD (.str "last")) = [] := byToken_nil hS (fun s h => by
    rcases headD_str h with h | h
    · exact hb s h
    · exact h ▸ h2)
  unfold range
  rw [e1, e2]
  repeat' split
  all_goals rfl

theorem toks_nil {c : Ctx} {S : String → Prop}
    (hS : ¬ S ".." ∨ ((∀ s, S s → c.parseDate s = none) ∧ S "first" ∧ S "last")) : ∀ (l : List Tok), Within S l → toks c l = [] := by
  intro l
  induction l using toks.induct with
  | case1 l hp h1 => intro _; rw [toks, if_pos hp]; split <;> simp_all
  | case2 l hp p r h1 h2 =>
    intro _
    rw [toks, if_pos hp]
    split
    · rfl
    · rename_i e1
      rw [h1] at e1; cases e1
      split
      · rfl
      · rename_i e2; rw [h2] at e2; cases e2
  | case3 l hp p r h1 m n h2 ih1 ih2 ih3 =>
    intro hw
    have e := splitLast_eq h1
    have e' := splitFirst_eq h2
    subst e; subst e'
    have wp : Within S p := hw.mono (by intro x hx; simp [hx])
    have wm : Within S m := hw.mono (by intro x hx; simp [hx])
    have wn : Within S n := hw.mono (by intro x hx; simp [hx])
    have wd : Within S p.dropLast := wp.mono (List.dropLast_subset _)
    rw [toks, if_pos hp]
    split
    · rfl
    · rename_i e1
      rw [h1] at e1; cases e1
      split
      · rfl
      · rename_i e2
        rw [h2] at e2; cases e2
        rw [ih1 wm, List.nil_append]
        split
        · rfl
        · split
          · exact ih2 _ ((wp.app .revs).app wn)
          · split
            · split
              · rfl
              · rename_i ha
                exact ih3 _ ((wd.app (apply_within ha)).app wn)
            · exact ih2 _ ((wp.app .revs).app wn)
  | case4 l hp a b h1 ih1 ih2 =>
    intro hw
    have e := splitFirst_eq h1
    subst e
    rw [toks, if_neg hp]
    split
    · rename_i e1
      rw [h1] at e1; cases e1
      rw [ih1 (hw.mono (by intro x hx; simp [hx])), ih2 (hw.mono (by intro x hx; simp [hx]))]
      split <;> rfl
    · rename_i e1; rw [h1] at e1; cases e1
  | case5 l hp h0 a b h1 ih1 ih2 =>
    intro hw
    have e := splitFirst_eq h1
    subst e
    rw [toks, if_neg hp]
    split
    · rename_i e1; rw [h0] at e1; cases e1
    · split
      · rename_i e1
        rw [h1] at e1; cases e1
        rw [ih1 (hw.mono (by intro x hx; simp [hx])), ih2 (hw.mono (by intro x hx; simp [hx]))]
        split <;> rfl
      · rename_i e1; rw [h1] at e1; cases e1
  | case6 l hp h0 h1 a b h2 =>
    intro hw
    rw [toks, if_neg hp]
    split
    · rename_i e1; rw [h0] at e1; cases e1
    · split
      · rename_i e1; rw [h1] at e1; cases e1
      · rw [h2]
        have e := splitFirst_eq h2
        subst e
        rcases hS with hS | ⟨hS, hf, hl⟩
        · exact absurd (hw ".." (by simp)) hS
        · exact range_nil hS hf hl (hw.mono (by intro x hx; simp [hx])) (hw.mono (by intro x hx; simp [hx]))
  | case7 l hp h0 h1 h2 =>
    intro _
    rw [toks, if_neg hp]
    split
    · rename_i e1; rw [h0] at e1; cases e1
    · split
      · rename_i e1; rw [h1] at e1; cases e1
      · rw [h2]

theorem findRevisions_nil {c : Ctx} {spec : String} (h : NoDateRange c.parseDate spec) : findRevisions c spec = [] := by
  rcases h with h | ⟨h1, h2, h3⟩
  · refine toks_nil (S := fun s => s ∈ tokenize spec) (.inl (fun hm => h (tokenize_infix hm))) _ ?_
    intro s hm
    obtain ⟨t, ht, he⟩ := List.mem_map.1 hm
    cases he; exact ht
  · refine toks_nil (S := fun s => c.parseDate s = none) (.inr ⟨fun _ h => h, h1, h2⟩) _ ?_
    intro s hm
    obtain ⟨t, ht, he⟩ := List.mem_map.1 hm
    cases he; exact h3 _ (tokenize_infix ht)

theorem NoDateRange.strip {pd : String → Option Int} {spec : String} (h : NoDateRange pd spec) :
    NoDateRange pd (String.ofList (Repo.strip spec.toList)) := by
  have hi := strip_infix spec.toList
  rcases h with h | ⟨h1, h2, h3⟩
  · exact .inl (fun hm => h ((by simpa using hm : ['.', '.'] <:+: Repo.strip spec.toList).trans hi))
  · exact .inr ⟨h1, h2, fun t ht => h3 t ((by simpa using ht : t.toList <:+: Repo.strip spec.toList).trans hi)⟩

theorem find_nil {c : Ctx} {spec : String} (h : NoDateRange c.parseDate spec) : find c spec = [] := by
  simp only [find]
  repeat' split
  all_goals first | rfl | exact findRevisions_nil h.strip

/-! ## C121 -/

/-- **C121** (partial: without dates in a range) The whole standard output of `rev-parse` is what `C121_files` and `C121_ids` say, and the
whole standard output of `log` is the table or the JSON text. -/
theorem C121_output_partial (pd : String → Option Int) (spec : String) (h : NoDateRange pd spec) (j : Listing.Job)
    (iso : Int → String) (iter : Finset String → List String) (encode : List (Dict String Val) → String)
    (draw : Listing.Listing → List String) :
    (∀ uuid out, Listing.revParse pd spec uuid j = .ok out → revParse pd spec uuid j = ⟨out, .ok ()⟩) ∧
    (∀ out, Listing.logJson pd iso iter spec j = .ok out → logJson encode pd iso iter spec j = ⟨[encode out], .ok ()⟩) ∧
    (∀ t, Listing.logTable pd iter spec j = .ok t → logTable draw pd iter spec j = ⟨draw t, .ok ()⟩) := by
  have e : findRevisions ⟨j.repo.history, pd⟩ spec = [] := findRevisions_nil h
  refine ⟨?_, ?_, ?_⟩
  · intro uuid out ho; simp [revParse, ho, e, after]
  · intro out ho; simp [logJson, ho, e, after, Except.map]
  · intro t ho; simp [logTable, ho, e, after, Except.map]

/-- A date parser for one text. -/
def exDate (s : String) : Option Int := if s = "2024-05-01" then some 15 else none

theorem exSaid : findRevisions ⟨Listing.exJob.repo.history, exDate⟩ "2024-05-01.." = [⟨"2024-05-01", 0, 1⟩] := by decide +kernel

theorem exSaid_text : Line.text ⟨"2024-05-01", 0, 1⟩ = "2024-05-01 0 1" := by decide +kernel

/-- **C121** is false of the code: with a date in a range, `rev-parse` prints a line that is no file name of a revision, and `log --json` one that is
not part of the JSON text. -/
theorem C121_false_debug_output :
    revParse exDate "2024-05-01.." true Listing.exJob = ⟨["2024-05-01 0 1", "bYm", "cZn"], .ok ()⟩ ∧
    (∀ (encode : List (Dict String Val) → String) (iso : Int → String) (iter : Finset String → List String), ∃ out,
      Listing.logJson exDate iso iter "2024-05-01.." Listing.exJob = .ok out ∧
      logJson encode exDate iso iter "2024-05-01.." Listing.exJob = ⟨["2024-05-01 0 1", encode out], .ok ()⟩) := by
  refine ⟨?_, ?_⟩
  · have e : Listing.revParse exDate "2024-05-01.." true Listing.exJob = .ok ["bYm", "cZn"] := by decide +kernel
    unfold revParse
    rw [exSaid, e]
    simp only [after, List.map_cons, List.map_nil, exSaid_text]
    rfl
  · intro encode iso iter
    have e : ∃ out, Listing.logJson exDate iso iter "2024-05-01.." Listing.exJob = .ok out := by
      unfold Listing.logJson
      have : ∃ l, Repo.findRevisions ⟨Listing.exJob.repo.history, exDate⟩ "2024-05-01.." = .ok l :=
        ⟨Listing.exJob.repo.history.drop 1, by decide +kernel⟩
      obtain ⟨l, hl⟩ := this
      rw [hl]
      exact ⟨_, rfl⟩
    obtain ⟨out, ho⟩ := e
    refine ⟨out, ho, ?_⟩
    unfold logJson
    rw [exSaid, ho]
    simp only [after, List.map_cons, List.map_nil, exSaid_text, Except.map]
    rfl

/-- C121_output_partial: a range without dates, a date without a range. -/
example := C121_output_partial exDate "1..last" (.inr ⟨by decide, by decide, by
    intro t ht
    unfold exDate
    rw [if_neg]
    rintro rfl
    revert ht
    decide +kernel⟩) Listing.exJob

example := C121_output_partial exDate "reverse(2024-05-01)" (.inl (by decide +kernel)) Listing.exJob

/-! ## C126 -/

/-- After any history, for a complete revision: what the program for the source writes. -/
theorem restoresOut (env : Env) (s0 s : Sys) (h0 : Initial s0) (hs : Steps env s0 s) (hcoll : CollFree env.H s.src.w.log)
    (pd : String → Option Int) (spec : String) (r : Rev)
    (hr : Repo.find ⟨s.src.repo.scan.history, pd⟩ spec = .ok r) (hl : r.server = "") (hc : r.clean = true) :
    ∃ c, s.ceph.taken.get? r.uuid = some c ∧ mainRestoreOut env r.uuid s.connect = (0, c) := by
  have hg := (Good.initial (env := env) h0).steps hcoll hs (fun _ h => h)
  have hm : r ∈ s.connect.src.repo.history :=
    find_mem (c := ⟨s.src.repo.scan.history, pd⟩) (nodup_of_map_uuid (Repo.scan_nodup s.src.repo)) hr
  have hd := (Repo.scan_mem hg.disk.named r).1 hm
  obtain ⟨c, h1, h2⟩ := hg.disk.good r.uuid r hd hl hc
  have hf : Backup.findByUuid s.connect.connect.src.repo r.uuid = .ok r :=
    findByUuid_ok (Repo.scan_nodup s.connect.src.repo) hm
  have hC := C20_restore_stdout env s.connect.connect.src.w r c (Backup.WOK.fresh (Backup.WOK.fresh hg.disk.wok)) h2 hcoll
  exact ⟨c, h1, by simp only [mainRestoreOut, hf, hC]⟩

/-- **C126** (partial: nothing but the image is only guaranteed without dates in a range) After any history: if the selected revision is a complete one
of this server, `backy restore -r SPEC -` exits with 0 and its standard output is exactly the snapshot that revision was taken of. -/
theorem C126_exact_partial (env : Env) (s0 s : Sys) (h0 : Initial s0) (hs : Steps env s0 s) (hcoll : CollFree env.H s.src.w.log)
    (utf8 : String → Bytes) (x : Outside) (hx : x.sch ≠ none) (buffered : Bool) (spec : String) (hspec : NoDateRange x.pd spec) (r : Rev)
    (hr : Repo.find ⟨s.src.repo.scan.history, x.pd⟩ spec = .ok r) (hl : r.server = "") (hc : r.clean = true) :
    ∃ c, s.ceph.taken.get? r.uuid = some c ∧ mainRestoreStdout env utf8 x buffered spec s = (0, c) := by
  obtain ⟨c, h1, h2⟩ := restoresOut env s0 s h0 hs hcoll x.pd spec r hr hl hc
  have hr' : Repo.find ⟨s.connect.src.repo.history, x.pd⟩ spec = .ok r := hr
  have hn : find ⟨s.connect.src.repo.history, x.pd⟩ spec = [] := find_nil hspec
  refine ⟨c, h1, ?_⟩
  unfold mainRestoreStdout
  cases hsch : x.sch with
  | none => exact absurd hsch hx
  | some sch =>
    simp only [restoreCmdOut, hr', h2, hn]
    cases buffered <;> simp [emit]

/-- **C126** (partial) With dates, into a pipe or file: the image comes first, then the lines of the lookup. -/
theorem C126_image_first_partial (env : Env) (s0 s : Sys) (h0 : Initial s0) (hs : Steps env s0 s) (hcoll : CollFree env.H s.src.w.log)
    (utf8 : String → Bytes) (x : Outside) (hx : x.sch ≠ none) (spec : String) (r : Rev)
    (hr : Repo.find ⟨s.src.repo.scan.history, x.pd⟩ spec = .ok r) (hl : r.server = "") (hc : r.clean = true) :
    ∃ c, s.ceph.taken.get? r.uuid = some c ∧
      mainRestoreStdout env utf8 x true spec s = (0, c ++ emit utf8 (find ⟨s.src.repo.scan.history, x.pd⟩ spec)) := by
  obtain ⟨c, h1, h2⟩ := restoresOut env s0 s h0 hs hcoll x.pd spec r hr hl hc
  have hr' : Repo.find ⟨s.connect.src.repo.history, x.pd⟩ spec = .ok r := hr
  refine ⟨c, h1, ?_⟩
  unfold mainRestoreStdout
  cases hsch : x.sch with
  | none => exact absurd hsch hx
  | some sch =>
    simp only [restoreCmdOut, hr', h2, if_true]
    rfl

/-- Text as ASCII codes. -/
def exAscii (s : String) : Bytes := s.toList.map (fun c => UInt8.ofNat c.toNat)

/-- What the date parser knows. -/
def exDated : Outside := { exOutside with pd := exDate }

/-- **C126** is false of the code: after one backup, restoring the newest revision since a date to standard output exits with 0, and what arrives
is the image followed by a line of text. -/
theorem C126_false_debug_line :
    Steps Test.env exNew exMixed ∧ CollFree Test.env.H exMixed.src.w.log ∧
    (∃ r, Repo.find ⟨exMixed.src.repo.scan.history, exDate⟩ "first(..2024-05-01)" = .ok r ∧ r.uuid = "a" ∧ r.server = "" ∧ r.clean = true) ∧
    exMixed.ceph.taken.get? "a" = some [0, 0, 0, 0, 1, 1, 1, 1] ∧
    mainRestoreStdout Test.env exAscii exDated true "first(..2024-05-01)" exMixed =
      (0, [0, 0, 0, 0, 1, 1, 1, 1] ++ exAscii "2024-05-01 0 1\n") := by
  refine ⟨exMixed_steps, Test.collFree _, ⟨finished (idealRbd [] []) (newRev "a" 10 {"daily"}), by decide +kernel⟩, by decide +kernel, by decide +kernel⟩

example := C126_exact_partial Test.env exNew exMixed exNew_initial exMixed_steps (Test.collFree _) exAscii exDated (by simp [exDated, exOutside]) true
  "first" (.inl (by decide +kernel)) (finished (idealRbd [] []) (newRev "a" 10 {"daily"})) (by decide +kernel) (by decide +kernel) (by decide +kernel)

example := C126_image_first_partial Test.env exNew exMixed exNew_initial exMixed_steps (Test.collFree _) exAscii exDated (by simp [exDated, exOutside])
  "first(..2024-05-01)" (finished (idealRbd [] []) (newRev "a" 10 {"daily"})) (by decide +kernel) (by decide +kernel) (by decide +kernel)

end Verif.Said
