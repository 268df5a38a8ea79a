import Verif.Spec.Migrate
/-!
# C66: migration of the chunk store
-/
namespace Verif.Migrate
open Verif

/-- What every operation of the migration preserves. -/
structure Keeps (t t' : Tree) : Prop where
  holds : ∀ xx n c, isChunk n = true → (Holds t' xx n c ↔ Holds t xx n c)
  others : ∀ xx yy n, isChunk n = false → t'.deep.get? (xx, yy, n) = t.deep.get? (xx, yy, n)
  top : ∀ xx n, isChunk n = false → t'.top.get? (xx, n) = t.top.get? (xx, n)
  dirs : ∀ d ∈ t'.subs, d ∈ t.subs

theorem Keeps.refl (t : Tree) : Keeps t t := ⟨fun _ _ _ _ => .rfl, fun _ _ _ _ => rfl, fun _ _ _ => rfl, fun _ h => h⟩

theorem Keeps.trans {a b c : Tree} (h : Keeps a b) (h' : Keeps b c) : Keeps a c :=
  ⟨fun xx n x hn => (h'.holds xx n x hn).trans (h.holds xx n x hn),
   fun xx yy n hn => (h'.others xx yy n hn).trans (h.others xx yy n hn),
   fun xx n hn => (h'.top xx n hn).trans (h.top xx n hn), fun d hd => h.dirs d (h'.dirs d hd)⟩

theorem Consistent.keeps {t t' : Tree} (h : Consistent t) (hk : Keeps t t') : Consistent t' :=
  fun xx n c c' hn h1 h2 => h xx n c c' hn ((hk.holds xx n c hn).1 h1) ((hk.holds xx n c' hn).1 h2)

theorem keeps_rename {t : Tree} (h : Consistent t) (k : String × String × String) (hk : isChunk k.2.2 = true) :
    Keeps t (t.rename k) := by
  obtain ⟨kx, ky, kn⟩ := k
  simp only at hk
  unfold Tree.rename
  cases hc : t.deep.get? (kx, ky, kn) with
  | none => exact .refl t
  | some c0 =>
    refine ⟨?_, ?_, ?_, fun d hd => hd⟩
    · intro xx n c hn
      unfold Holds
      simp only [Dict.get?_set, Dict.get?_erase, Prod.mk.injEq]
      by_cases hx : xx = kx ∧ n = kn
      · obtain ⟨rfl, rfl⟩ := hx
        simp only [and_self, if_true, Option.some.injEq]
        constructor
        · rintro (rfl | ⟨yy, hy⟩)
          · exact .inr ⟨ky, hc⟩
          · split at hy
            · cases hy
            · exact .inr ⟨yy, hy⟩
        · intro hh
          exact .inl (h xx n c0 c hn (.inr ⟨ky, hc⟩) hh)
      · rw [if_neg hx]
        refine or_congr .rfl (exists_congr fun yy => ?_)
        rw [if_neg (fun hh => hx ⟨hh.1, hh.2.2⟩)]
    · intro xx yy n hn
      simp only [Dict.get?_erase, Prod.mk.injEq]
      rw [if_neg]
      rintro ⟨_, _, rfl⟩
      rw [hk] at hn; cases hn
    · intro xx n hn
      simp only [Dict.get?_set, Prod.mk.injEq]
      rw [if_neg]
      rintro ⟨_, rfl⟩
      rw [hk] at hn; cases hn

/-- All states of a run keep what `t` holds. -/
def RunKeeps (t : Tree) (r : Run) : Prop := Keeps t r.tree ∧ ∀ x ∈ r.log, Keeps t x

theorem RunKeeps.put {t : Tree} {r : Run} (h : RunKeeps t r) {x : Tree} (hx : Keeps t x) : RunKeeps t (r.put x) :=
  ⟨hx, fun y hy => (List.mem_cons.1 hy).elim (fun e => e ▸ hx) (fun hy => h.2 y hy)⟩

theorem renameAll_keeps {t : Tree} (hc : Consistent t) (ks : List (String × String × String)) :
    ∀ r : Run, RunKeeps t r → (∀ k ∈ ks, isChunk k.2.2 = true) → RunKeeps t (renameAll ks r) := by
  induction ks with
  | nil => intro r h _; exact h
  | cons k ks ih =>
    intro r h hk
    exact ih _ (h.put (h.1.trans (keeps_rename (hc.keeps h.1) k (hk k (by simp))))) (fun x hx => hk x (by simp [hx]))

theorem renameAll_fixed (ks : List (String × String × String)) : ∀ r : Run,
    (renameAll ks r).tree.subs = r.tree.subs ∧ (renameAll ks r).tree.marker = r.tree.marker ∧
    (∀ x ∈ (renameAll ks r).log, x ∈ r.log ∨ x.marker = r.tree.marker ∧ x.subs = r.tree.subs) := by
  induction ks with
  | nil => intro r; exact ⟨rfl, rfl, fun x hx => .inl hx⟩
  | cons k ks ih =>
    intro r
    have h1 : (r.tree.rename k).subs = r.tree.subs ∧ (r.tree.rename k).marker = r.tree.marker := by
      unfold Tree.rename; split <;> exact ⟨rfl, rfl⟩
    obtain ⟨a, b, c⟩ := ih (r.put (r.tree.rename k))
    refine ⟨a.trans h1.1, b.trans h1.2, fun x hx => ?_⟩
    rcases c x hx with h | h
    · rcases List.mem_cons.1 h with rfl | h
      · exact .inr ⟨h1.2, h1.1⟩
      · exact .inl h
    · exact .inr ⟨h.1.trans h1.2, h.2.trans h1.1⟩

theorem renameAll_deep (ks : List (String × String × String)) : ∀ r : Run, ∀ k,
    (renameAll ks r).tree.deep.get? k = if k ∈ ks then none else r.tree.deep.get? k := by
  induction ks with
  | nil => intro r k; simp [renameAll]
  | cons a ks ih =>
    intro r k
    have h1 : (r.tree.rename a).deep.get? k = if k = a then none else r.tree.deep.get? k := by
      unfold Tree.rename
      split
      · rename_i h
        split
        · rename_i hk; rw [hk, h]
        · rfl
      · rw [Dict.get?_erase]
    have := ih (r.put (r.tree.rename a)) k
    simp only [renameAll, List.foldl_cons] at this ⊢
    rw [this]
    simp only [Run.put, h1, List.mem_cons]
    by_cases hk : k ∈ ks <;> by_cases hka : k = a <;> simp [hk, hka]

theorem rmdirAll_keeps {t : Tree} (ds : List (String × String)) : ∀ r : Run, RunKeeps t r → RunKeeps t (rmdirAll ds r).2 := by
  induction ds with
  | nil => intro r h; exact h
  | cons d ds ih =>
    intro r h
    simp only [rmdirAll]
    split
    · exact h
    · refine ih _ (h.put (h.1.trans ⟨fun _ _ _ _ => .rfl, fun _ _ _ _ => rfl, fun _ _ _ => rfl, ?_⟩))
      intro x hx
      exact (List.mem_filter.1 hx).1

theorem rmdirAll_fixed (ds : List (String × String)) : ∀ r : Run,
    (rmdirAll ds r).2.tree.deep = r.tree.deep ∧ (rmdirAll ds r).2.tree.top = r.tree.top ∧
    (∀ x ∈ (rmdirAll ds r).2.log, x ∈ r.log ∨ x.marker = r.tree.marker ∧ x.deep = r.tree.deep) := by
  induction ds with
  | nil => intro r; exact ⟨rfl, rfl, fun x hx => .inl hx⟩
  | cons d ds ih =>
    intro r
    simp only [rmdirAll]
    split
    · exact ⟨rfl, rfl, fun x hx => .inl hx⟩
    · obtain ⟨a, b, c⟩ := ih (r.put (r.tree.rmdir d))
      refine ⟨a, b, fun x hx => ?_⟩
      rcases c x hx with h | h
      · rcases List.mem_cons.1 h with rfl | h
        · exact .inr ⟨rfl, rfl⟩
        · exact .inl h
      · exact .inr h

theorem rmdirAll_ok (ds : List (String × String)) : ∀ r : Run,
    (rmdirAll ds r).1 = .ok () ↔ ∀ d ∈ ds, r.tree.occupied d = false := by
  induction ds with
  | nil => intro r; simp [rmdirAll]
  | cons d ds ih =>
    intro r
    simp only [rmdirAll]
    by_cases h : r.tree.occupied d = true
    · simp [h]
    · rw [if_neg h, ih]
      have : ∀ x, (r.put (r.tree.rmdir d)).tree.occupied x = r.tree.occupied x := fun x => rfl
      simp only [this, List.mem_cons, forall_eq_or_imp]
      simp [Bool.not_eq_true] at h
      simp [h]

theorem occupied_iff (t : Tree) (d : String × String) :
    t.occupied d = true ↔ ∃ n c, t.deep.get? (d.1, d.2, n) = some c := by
  unfold Tree.occupied
  simp only [List.any_eq_true, decide_eq_true_eq]
  constructor
  · rintro ⟨⟨a, b, n⟩, hm, h⟩
    obtain ⟨c, hc⟩ := Option.isSome_iff_exists.1 (Dict.mem_keys_iff.1 hm)
    simp only at h
    exact ⟨n, c, by rw [← h.1, ← h.2]; exact hc⟩
  · rintro ⟨n, c, hc⟩
    exact ⟨(d.1, d.2, n), Dict.mem_keys_iff.2 (by simp [hc]), rfl, rfl⟩

theorem mem_oldChunks (t : Tree) (k : String × String × String) :
    k ∈ t.oldChunks ↔ (∃ c, t.deep.get? k = some c) ∧ isChunk k.2.2 = true := by
  unfold Tree.oldChunks
  rw [List.mem_filter, Dict.mem_keys_iff, Option.isSome_iff_exists]

theorem start_keeps {t : Tree} (h : Consistent t) : RunKeeps t (start t).2 := by
  have h0 : RunKeeps t ⟨t, [t]⟩ := ⟨.refl t, by intro x hx; rw [List.mem_singleton.1 hx]; exact .refl t⟩
  unfold start
  split
  · exact h0
  · have h1 := renameAll_keeps h t.oldChunks ⟨t, [t]⟩ h0 (fun k hk => ((mem_oldChunks t k).1 hk).2)
    have h2 := rmdirAll_keeps (t := t) (renameAll t.oldChunks ⟨t, [t]⟩).tree.oldDirs _ h1
    split
    · rename_i e r hr; rw [hr] at h2; exact h2
    · rename_i r hr; rw [hr] at h2
      exact h2.put (h2.1.trans ⟨fun _ _ _ _ => .rfl, fun _ _ _ _ => rfl, fun _ _ _ => rfl, fun _ h => h⟩)

/-- The marker is only set when no chunk file is left in an old place. -/
def Marked (t : Tree) : Prop := t.marker = true → ∀ xx yy n, isChunk n = true → t.deep.get? (xx, yy, n) = none

theorem renamed_deep (t : Tree) (xx yy n : String) (hn : isChunk n = true) :
    (renameAll t.oldChunks ⟨t, [t]⟩).tree.deep.get? (xx, yy, n) = none := by
  rw [renameAll_deep]
  split
  · rfl
  · rename_i h
    rw [mem_oldChunks] at h
    cases hc : t.deep.get? (xx, yy, n) with
    | none => rfl
    | some c => exact absurd ⟨⟨c, hc⟩, hn⟩ h

theorem start_marked {t : Tree} (h : Marked t) :
    (∀ x ∈ (start t).2.log, Marked x) ∧ ((start t).1 = .ok () → (start t).2.tree.marker = true ∧ Marked (start t).2.tree) ∧
      (start t).2.tree ∈ (start t).2.log := by
  unfold start
  split
  · rename_i hm
    refine ⟨by intro x hx; rw [List.mem_singleton.1 hx]; exact h, fun _ => ⟨hm, h⟩, by simp⟩
  · rename_i hm
    have hf := renameAll_fixed t.oldChunks ⟨t, [t]⟩
    have hg := rmdirAll_fixed (renameAll t.oldChunks ⟨t, [t]⟩).tree.oldDirs (renameAll t.oldChunks ⟨t, [t]⟩)
    have hin : ∀ ds r, r.tree ∈ r.log → (rmdirAll ds r).2.tree ∈ (rmdirAll ds r).2.log := by
      intro ds
      induction ds with
      | nil => intro r hr; exact hr
      | cons d ds ih =>
        intro r hr
        simp only [rmdirAll]
        split
        · exact hr
        · exact ih _ (by simp [Run.put])
    have hin1 : ∀ ks r, r.tree ∈ r.log → (renameAll ks r).tree ∈ (renameAll ks r).log := by
      intro ks
      induction ks with
      | nil => intro r hr; exact hr
      | cons k ks ih => intro r hr; exact ih _ (by simp [Run.put])
    have hin' := hin (renameAll t.oldChunks ⟨t, [t]⟩).tree.oldDirs (renameAll t.oldChunks ⟨t, [t]⟩) (hin1 _ _ (by simp))
    have hun : ∀ x ∈ (rmdirAll (renameAll t.oldChunks ⟨t, [t]⟩).tree.oldDirs (renameAll t.oldChunks ⟨t, [t]⟩)).2.log,
        Marked x := by
      intro x hx hxm
      exfalso
      have : x.marker = t.marker := by
        rcases hg.2.2 x hx with h1 | h1
        · rcases hf.2.2 x h1 with h2 | h2
          · rw [List.mem_singleton.1 h2]
          · exact h2.1
        · exact h1.1.trans hf.2.1
      rw [this] at hxm
      exact hm hxm
    split
    · rename_i e r hr
      rw [hr] at hun hin'
      exact ⟨hun, by simp, hin'⟩
    · rename_i r hr
      rw [hr] at hun hg
      have hmk : Marked { r.tree with marker := true } := by
        intro _ xx yy n hn
        show r.tree.deep.get? (xx, yy, n) = none
        rw [hg.1]
        exact renamed_deep t xx yy n hn
      refine ⟨?_, fun _ => ⟨rfl, hmk⟩, by simp [Run.put]⟩
      intro x hx
      rcases List.mem_cons.1 hx with rfl | hx
      · exact hmk
      · exact hun x hx

theorem Starts.keeps {a b : Tree} (h : Starts a b) (hc : Consistent a) (hm : Marked a) : Keeps a b ∧ Marked b := by
  induction h with
  | nil => exact ⟨.refl a, hm⟩
  | cons h h' ih => exact ⟨ih.1.trans ((start_keeps (hc.keeps ih.1)).2 _ h'), (start_marked ih.2).1 _ h'⟩

/-- **C66** (nothing is lost): after any number of starts, each of which may have been interrupted at any point, the store
holds exactly the chunks of the old store, and no other file in the old places has changed. -/
theorem C66_nothing_lost (t t' : Tree) (hc : Consistent t) (hm : t.marker = false) (h : Starts t t') :
    (∀ xx name c, isChunk name = true → (Holds t' xx name c ↔ Holds t xx name c)) ∧
    (∀ xx name, isChunk name = false → t'.top.get? (xx, name) = t.top.get? (xx, name)) ∧
    (∀ xx yy name, isChunk name = false → t'.deep.get? (xx, yy, name) = t.deep.get? (xx, yy, name)) :=
  have k := (h.keeps hc (fun hm' => by rw [hm] at hm'; cases hm')).1
  ⟨k.holds, k.top, k.others⟩

/-- **C66** (the new layout): when a start succeeded, after any number of earlier starts, every chunk that was below the
directory its name belongs to is found where the code looks for it, with its content. -/
theorem C66_found (t t' : Tree) (hc : Consistent t) (hm : t.marker = false) (h : Starts t t')
    (hok : (start t').1 = .ok ()) (hash : String) (a b : Char) (l : List Char) (he : hash.toList = a :: b :: l) (c : Bytes)
    (hh : Holds t (String.ofList [a, b]) (hash ++ ".chunk.lzo") c) :
    (start t').2.tree.top.get? (String.ofList [a, b], hash ++ ".chunk.lzo") = some c ∧
      chunkPath hash = (String.ofList [a, b], hash ++ ".chunk.lzo") ∧ hash ∈ (start t').2.tree.ls ∧
      (start t').2.tree.marker = true := by
  have hcp : chunkPath hash = (String.ofList [a, b], hash ++ ".chunk.lzo") := by
    simp [chunkPath, he]
  have h1 : (chunkPath hash).1 = String.ofList [a, b] := by rw [hcp]
  have h2 : (chunkPath hash).2 = hash ++ ".chunk.lzo" := by rw [hcp]
  rw [← h1, ← h2] at hh ⊢
  obtain ⟨hk, hmk⟩ := h.keeps hc (fun hm' => by rw [hm] at hm'; cases hm')
  have hlast : (chunkPath hash).2.toList = hash.toList ++ ".chunk.lzo".toList := by
    simp [chunkPath]
  have hn : isChunk (chunkPath hash).2 = true := by
    unfold isChunk
    rw [hlast, List.isSuffixOf_iff_suffix]
    exact List.suffix_append _ _
  obtain ⟨_, h2, _⟩ := start_marked hmk
  obtain ⟨hm2, hd⟩ := h2 hok
  have h3 : Holds (start t').2.tree (chunkPath hash).1 (chunkPath hash).2 c :=
    ((hk.trans (start_keeps (hc.keeps hk)).1).holds _ _ _ hn).2 hh
  have h4 : (start t').2.tree.top.get? (chunkPath hash) = some c := by
    rcases h3 with h3 | ⟨yy, h3⟩
    · exact h3
    · rw [hd hm2 _ yy _ hn] at h3; cases h3
  refine ⟨h4, rfl, ?_, hm2⟩
  unfold Tree.ls
  rw [List.mem_map]
  refine ⟨chunkPath hash, List.mem_filter.2 ⟨Dict.mem_keys_iff.2 (by simp [h4]), hn⟩, ?_⟩
  rw [hlast]
  have : (hash.toList ++ ".chunk.lzo".toList).length - 10 = hash.toList.length := by
    rw [List.length_append]
    have : ".chunk.lzo".toList.length = 10 := by decide
    omega
  rw [this, List.take_left' rfl]
  simp

/-- **C66** (when it succeeds): a start succeeds exactly if the store is migrated already or its old directories contain
nothing but chunk files. -/
theorem C66_succeeds_iff (t : Tree) : (start t).1 = .ok () ↔ t.marker = true ∨ OnlyChunks t := by
  unfold start
  by_cases hm : t.marker = true
  · simp [hm]
  · rw [if_neg hm]
    have hiff := rmdirAll_ok (renameAll t.oldChunks ⟨t, [t]⟩).tree.oldDirs (renameAll t.oldChunks ⟨t, [t]⟩)
    have hsub := (renameAll_fixed t.oldChunks ⟨t, [t]⟩).1
    have key : (rmdirAll (renameAll t.oldChunks ⟨t, [t]⟩).tree.oldDirs (renameAll t.oldChunks ⟨t, [t]⟩)).1 = .ok () ↔
        OnlyChunks t := by
      rw [hiff]
      constructor
      · intro h xx yy n c hg hs hl
        by_cases hn : isChunk n = true
        · exact hn
        · exfalso
          have := h (xx, yy) (List.mem_filter.2 ⟨by rw [hsub]; exact hs, by simpa using hl⟩)
          rw [← Bool.not_eq_true, occupied_iff] at this
          refine this ⟨n, c, ?_⟩
          rw [renameAll_deep, if_neg]
          · exact hg
          · rw [mem_oldChunks]; exact fun hh => hn hh.2
      · intro h d hd
        rw [← Bool.not_eq_true, occupied_iff]
        rintro ⟨n, c, hg⟩
        rw [renameAll_deep] at hg
        split at hg
        · cases hg
        · rename_i hno
          obtain ⟨hd1, hd2⟩ := List.mem_filter.1 hd
          rw [hsub] at hd1
          exact hno ((mem_oldChunks _ _).2 ⟨⟨c, hg⟩, h d.1 d.2 n c hg hd1 (by simpa using hd2)⟩)
    rw [← key]
    simp only [hm, false_or, Bool.false_eq_true]
    split
    · rename_i hr; rw [hr]
    · rename_i hr; rw [hr]

theorem rmdirAll_stays (ds : List (String × String)) : ∀ (r : Run) (d : String × String), r.tree.occupied d = true → d ∈ r.tree.subs →
    (∀ x ∈ (rmdirAll ds r).2.log, x ∈ r.log ∨ d ∈ x.subs) ∧ d ∈ (rmdirAll ds r).2.tree.subs := by
  induction ds with
  | nil => intro r d _ h; exact ⟨fun x hx => .inl hx, h⟩
  | cons a ds ih =>
    intro r d ho h
    simp only [rmdirAll]
    split
    · exact ⟨fun x hx => .inl hx, h⟩
    · rename_i hna
      have hda : d ≠ a := by rintro rfl; exact hna ho
      have hd : d ∈ (r.tree.rmdir a).subs := List.mem_filter.2 ⟨h, by simpa using hda⟩
      obtain ⟨h1, h2⟩ := ih (r.put (r.tree.rmdir a)) d ho hd
      refine ⟨fun x hx => ?_, h2⟩
      rcases h1 x hx with h3 | h3
      · rcases List.mem_cons.1 h3 with rfl | h3
        · exact .inr hd
        · exact .inl h3
      · exact .inr h3

/-- **C66** (a foreign file): as long as somebody leaves another file in an old directory, no start succeeds any more. -/
theorem C66_stuck (t t' : Tree) (hc : Consistent t) (hm : t.marker = false) (h : Starts t t') (ho : ¬ OnlyChunks t) :
    (start t').1 ≠ .ok () ∧ t'.marker = false := by
  unfold OnlyChunks at ho
  simp only [Classical.not_forall] at ho
  obtain ⟨xx, yy, n, c, hg, hs, hl, hn⟩ := ho
  rw [Bool.not_eq_true] at hn
  have key : (xx, yy) ∈ t'.subs ∧ t'.marker = false ∧ t'.deep.get? (xx, yy, n) = some c := by
    induction h with
    | nil => exact ⟨hs, hm, hg⟩
    | cons h h' ih =>
      rename_i b x
      have hk := (h.keeps hc (fun hm' => by rw [hm] at hm'; cases hm')).1
      have hk' := (start_keeps (hc.keeps hk)).2 _ h'
      refine ⟨?_, ?_, by rw [hk'.others xx yy n hn]; exact ih.2.2⟩ <;>
      · revert h'
        unfold start
        rw [if_neg (by rw [ih.2.1]; simp)]
        have hsub := renameAll_fixed b.oldChunks ⟨b, [b]⟩
        have hocc : (renameAll b.oldChunks ⟨b, [b]⟩).tree.occupied (xx, yy) = true := by
          rw [occupied_iff]
          refine ⟨n, c, ?_⟩
          rw [renameAll_deep, if_neg]
          · exact ih.2.2
          · rw [mem_oldChunks]; rintro ⟨_, h2⟩; rw [hn] at h2; cases h2
        have hst := rmdirAll_stays (renameAll b.oldChunks ⟨b, [b]⟩).tree.oldDirs (renameAll b.oldChunks ⟨b, [b]⟩) (xx, yy) hocc
          (by rw [hsub.1]; exact ih.1)
        have hfx := rmdirAll_fixed (renameAll b.oldChunks ⟨b, [b]⟩).tree.oldDirs (renameAll b.oldChunks ⟨b, [b]⟩)
        split
        · rename_i e r hr
          rw [hr] at hst hfx
          intro hx
          first
            | (rcases hst.1 x hx with h1 | h1
               · rcases hsub.2.2 x h1 with h3 | h3
                 · rw [List.mem_singleton.1 h3]; exact ih.1
                 · rw [h3.2]; exact ih.1
               · exact h1)
            | (rcases hfx.2.2 x hx with h2 | h2
               · rcases hsub.2.2 x h2 with h3 | h3
                 · rw [List.mem_singleton.1 h3]; exact ih.2.1
                 · exact h3.1.trans ih.2.1
               · exact h2.1.trans (hsub.2.1.trans ih.2.1))
        · rename_i r hr
          exfalso
          have hok := (rmdirAll_ok (renameAll b.oldChunks ⟨b, [b]⟩).tree.oldDirs (renameAll b.oldChunks ⟨b, [b]⟩)).1 (by rw [hr])
            (xx, yy) (List.mem_filter.2 ⟨by rw [hsub.1]; exact ih.1, by simpa using hl⟩)
          rw [hocc] at hok; cases hok
  refine ⟨?_, key.2.1⟩
  rw [Ne, C66_succeeds_iff]
  rintro (h1 | h1)
  · rw [key.2.1] at h1; cases h1
  · rw [h1 xx yy n c key.2.2 key.1 hl] at hn; cases hn

/-- An old store with three chunks, one of them already in its new place. -/
def exOld : Tree :=
  { top := [(("ab", "abcd.chunk.lzo"), [1])], subs := [("ab", "12"), ("cd", "34")],
    deep := [(("ab", "12", "ab12.chunk.lzo"), [2]), (("cd", "34", "cd34.chunk.lzo"), [3])], marker := false }

/-- The hypotheses are met by a store that is interrupted in the middle of the first start. -/
example : Consistent exOld ∧ exOld.marker = false ∧ (∃ t', Starts exOld t' ∧ t' ≠ exOld ∧ t'.marker = false ∧
    (start t').1 = .ok () ∧ Holds exOld (chunkPath "ab12").1 (chunkPath "ab12").2 [2]) := by
  refine ⟨?_, rfl, ⟨_, .cons (.nil _) (?_ : exOld.rename ("ab", "12", "ab12.chunk.lzo") ∈ _), ?_, rfl, ?_, ?_⟩⟩
  · intro xx n c c' _ h1 h2
    simp only [Holds, exOld, Dict.get?, Prod.mk.injEq] at h1 h2
    by_cases ha : n = "abcd.chunk.lzo"
    · subst ha; simp at h1 h2; rw [← h1.2, ← h2.2]
    · by_cases hb : n = "ab12.chunk.lzo"
      · subst hb; simp at h1 h2; simp_all
      · have ha' := Ne.symm ha
        have hb' := Ne.symm hb
        simp [ha', hb'] at h1 h2
        rw [← h1.2, ← h2.2]
  · decide +kernel
  · decide +kernel
  · decide +kernel
  · exact .inr ⟨"12", by decide +kernel⟩

/-- A temporary file that an interrupted write left behind in an old directory makes every start fail. -/
example : (start { exOld with deep := exOld.deep ++ [(("ab", "12", "tmp1"), [])] }).1 = .error .os := by decide +kernel

theorem exOld_consistent : Consistent exOld := by
  intro xx n c c' _ h1 h2
  simp only [Holds, exOld, Dict.get?, Prod.mk.injEq] at h1 h2
  by_cases ha : n = "abcd.chunk.lzo"
  · subst ha; simp at h1 h2; rw [← h1.2, ← h2.2]
  · by_cases hb : n = "ab12.chunk.lzo"
    · subst hb; simp at h1 h2; simp_all
    · have ha' := Ne.symm ha
      have hb' := Ne.symm hb
      simp [ha', hb'] at h1 h2
      rw [← h1.2, ← h2.2]

theorem exOld_starts : Starts exOld (exOld.rename ("ab", "12", "ab12.chunk.lzo")) :=
  .cons (.nil _) (by decide +kernel : exOld.rename ("ab", "12", "ab12.chunk.lzo") ∈ _)

example := C66_nothing_lost exOld _ exOld_consistent rfl exOld_starts
example := C66_found exOld _ exOld_consistent rfl exOld_starts (by decide +kernel) "ab12" 'a' 'b' ['1', '2'] (by decide +kernel) [2]
  (.inr ⟨"12", by decide +kernel⟩)

/-- A store in the old layout with a file that is no chunk. -/
def exStray : Tree := ⟨[], [("ab", "12")], [(("ab", "12", "tmp1"), [])], false⟩

theorem exStray_stuck : ¬ OnlyChunks exStray := fun h =>
  absurd (h "ab" "12" "tmp1" [] (by decide) (by decide) (by decide)) (by decide +kernel)

theorem exStray_consistent : Consistent exStray := by
  intro xx n c c' hn h1 h2
  have hget : ∀ k c, exStray.deep.get? k = some c → c = [] := by
    intro k c h
    have := Dict.mem_of_get? h
    simp only [exStray, List.mem_singleton, Prod.mk.injEq] at this
    exact this.2
  rcases h1 with h1 | ⟨y, h1⟩
  · cases h1
  · rcases h2 with h2 | ⟨y', h2⟩
    · cases h2
    · rw [hget _ _ h1, hget _ _ h2]

/-- C66_stuck: the migration of this store fails at every start. -/
example := C66_stuck exStray exStray exStray_consistent rfl (.nil _) exStray_stuck

end Verif.Migrate
