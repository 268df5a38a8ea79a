import Verif.Proofs.ChunkedLog
import Verif.Proofs.ListLemmas
import Verif.Spec.Image
/-!
# The invariant of the chunked file model
-/
namespace Verif.Chunked
open Verif Verif.Spec

/-- Stored content behind an optional hash. -/
def stored (w : World) : Option Hash → Bytes
  | none => []
  | some h => match w.chunks.get? h with
    | some (some d) => d
    | _ => []

/-- `w'` has all chunks of `w` with the same content and the same mapping files. -/
structure Ext (w w' : World) : Prop where
  chunks : ∀ h d, w.chunks.get? h = some (some d) → w'.chunks.get? h = some (some d)
  metas : w'.metas = w.metas
  force : w'.force = w.force

theorem Ext.refl (w : World) : Ext w w := ⟨fun _ _ h => h, rfl, rfl⟩
theorem Ext.trans {a b c : World} (h : Ext a b) (h' : Ext b c) : Ext a c :=
  ⟨fun x d hx => h'.chunks x d (h.chunks x d hx), h'.metas.trans h.metas, h'.force.trans h.force⟩

structure COK (env : Env) (w : World) (mapped : Option Hash) (ch : Chunk) : Prop where
  dirty : ch.clean = false → ∃ d, ch.data = some d ∧ d.length ≤ env.cs
  clean : ch.clean = true → ch.hash = mapped ∧ (ch.data = none ∨ ch.data = some (stored w mapped))

def cview (w : World) (ch : Chunk) : Bytes := ch.data.getD (stored w ch.hash)

def view (s : S) (id : Nat) : Bytes :=
  match s.f.chunks.get? id with
  | some ch => cview s.w ch
  | none => stored s.w (s.f.mapping.get? id)

structure Base (env : Env) (s : S) : Prop where
  wok : WOK env s.w
  nodup : s.f.chunks.keys.Nodup
  mapok : MapOK s.w s.f.mapping
  cok : ∀ id ch, s.f.chunks.get? id = some ch → COK env s.w (s.f.mapping.get? id) ch

theorem stored_ext {w w' : World} (he : Ext w w') {m : Option Hash}
    (hm : ∀ h, m = some h → ∃ d, w.chunks.get? h = some (some d)) : stored w' m = stored w m := by
  cases m with
  | none => rfl
  | some h =>
    obtain ⟨d, hd⟩ := hm h rfl
    simp [stored, hd, he.chunks h d hd]

theorem MapOK.ext {w w' : World} (he : Ext w w') {m : Dict Nat Hash} (h : MapOK w m) :
    MapOK w' m := fun x hx => by
  obtain ⟨d, hd⟩ := h x hx
  exact ⟨d, he.chunks x d hd⟩

theorem COK.ext {env : Env} {w w' : World} (he : Ext w w') {m : Option Hash}
    (hm : ∀ h, m = some h → ∃ d, w.chunks.get? h = some (some d)) {ch : Chunk}
    (h : COK env w m ch) : COK env w' m ch :=
  ⟨h.dirty, fun hc => by rw [stored_ext he hm]; exact h.clean hc⟩

theorem COK.view {env : Env} {w : World} {m : Option Hash} {ch : Chunk} (h : COK env w m ch)
    (hc : ch.clean = true) : cview w ch = stored w m := by
  obtain ⟨h1, h2⟩ := h.clean hc
  rcases h2 with h2 | h2 <;> simp [cview, h2, h1]

theorem cview_ext {env : Env} {w w' : World} (he : Ext w w') {m : Option Hash}
    (hm : ∀ h, m = some h → ∃ d, w.chunks.get? h = some (some d)) {ch : Chunk}
    (h : COK env w m ch) : cview w' ch = cview w ch := by
  cases hc : ch.clean with
  | false => obtain ⟨d, hd, _⟩ := h.dirty hc; simp [cview, hd]
  | true => rw [h.view hc, (h.ext he hm).view hc, stored_ext he hm]

theorem stored_length {env : Env} {w : World} (h : WOK env w) (m : Option Hash) :
    (stored w m).length ≤ env.cs := by
  cases m with
  | none => simp [stored]
  | some x =>
    simp only [stored]
    split
    · rename_i d hd
      obtain ⟨d', h1, _, _, h4⟩ := h.good x _ hd
      cases h1; exact h4
    · simp

theorem view_length {env : Env} {s : S} (h : Base env s) (id : Nat) :
    (view s id).length ≤ env.cs := by
  unfold view
  split
  · rename_i ch hch
    have := h.cok id ch hch
    cases hc : ch.clean with
    | false => obtain ⟨d, hd, hl⟩ := this.dirty hc; simpa [cview, hd] using hl
    | true => rw [this.view hc]; exact stored_length h.wok _
  · exact stored_length h.wok _

/-- Flushing one dirty chunk. -/
theorem Chunk.flush_ok {env : Env} {L : List Bytes} (hL : CollFree env.H L) {w : World}
    (hw : WOK env w) (hlog : w.log ⊆ L) {c : Chunk} (hc : c.clean = false) {d : Bytes}
    (hd : c.data = some d) (hlen : d.length ≤ env.cs) (hdL : d ∈ L) :
    ∃ c' w', c.flush env w = .ok (some (env.H d), c', w') ∧ WOK env w' ∧ Ext w w' ∧
      w'.chunks.get? (env.H d) = some (some d) ∧ w'.log = d :: w.log := by
  unfold Chunk.flush
  simp only [hc, hd]
  -- an existing file of that hash has the same content
  have hsame : ∀ x, w.chunks.get? (env.H d) = some x → x = some d := by
    intro x hx
    obtain ⟨d', h1, h2, h3, _⟩ := hw.good _ _ hx
    rw [h1, hL d' (hlog h3) d hdL h2]
  by_cases hs : env.H d ∈ w.seen
  · refine ⟨_, { w with log := d :: w.log }, by simp [hs]; rfl, ⟨?_, ?_⟩, ⟨fun _ _ h => h, rfl, rfl⟩, ?_, rfl⟩
    · intro h x hx
      obtain ⟨d', h1, h2, h3, h4⟩ := hw.good h x hx
      exact ⟨d', h1, h2, by simp [h3], h4⟩
    · exact hw.seen
    · obtain ⟨d', hd'⟩ := hw.seen _ hs
      have := hsame _ hd'
      simpa [this] using hd'
  · by_cases hwr : w.force = true ∨ w.chunks.has (env.H d) = false
    · refine ⟨_, { w with log := d :: w.log, chunks := w.chunks.set (env.H d) (some d),
                          seen := env.H d :: w.seen }, by simp [hs, hwr]; rfl, ⟨?_, ?_⟩, ⟨?_, rfl, rfl⟩, ?_, rfl⟩
      · intro h x hx
        simp only [Dict.get?_set] at hx
        split at hx
        · rename_i heq; subst heq
          cases hx; exact ⟨d, rfl, rfl, by simp, hlen⟩
        · obtain ⟨d', h1, h2, h3, h4⟩ := hw.good h x hx
          exact ⟨d', h1, h2, by simp [h3], h4⟩
      · intro h hh
        simp only [Dict.get?_set]
        simp only [List.mem_cons] at hh
        by_cases heq : h = env.H d
        · exact ⟨d, by simp [heq]⟩
        · simp only [heq, if_false]
          exact hw.seen h (by rcases hh with hh | hh; exact absurd hh heq; exact hh)
      · intro h d' hd'
        simp only [Dict.get?_set]
        split
        · rename_i heq; subst heq; rw [hsame _ hd']
        · exact hd'
      · simp
    · have hex : w.chunks.has (env.H d) = true := by
        simp only [not_or, Bool.not_eq_false] at hwr; exact hwr.2
      have hex' : ∃ x, w.chunks.get? (env.H d) = some x := by
        simpa [Dict.has, Option.isSome_iff_exists] using hex
      obtain ⟨x, hx⟩ := hex'
      have hxd := hsame x hx
      refine ⟨_, { w with log := d :: w.log, seen := env.H d :: w.seen }, by simp [hs, hwr]; rfl,
        ⟨?_, ?_⟩, ⟨fun _ _ h => h, rfl, rfl⟩, ?_, rfl⟩
      · intro h x hx
        obtain ⟨d', h1, h2, h3, h4⟩ := hw.good h x hx
        exact ⟨d', h1, h2, by simp [h3], h4⟩
      · intro h hh
        simp only [List.mem_cons] at hh
        rcases hh with rfl | hh
        · exact ⟨d, by rw [hx, hxd]⟩
        · exact hw.seen h hh
      · rw [← hxd]; exact hx

theorem flushList_ok {env : Env} {L : List Bytes} (hL : CollFree env.H L) (P : Nat → Prop)
    (l : List (Nat × Chunk)) (s : S) (hw : WOK env s.w) (hm : MapOK s.w s.f.mapping) (hn : (Dict.keys l).Nodup)
    (hc : ∀ id ch, (id, ch) ∈ l → (ch.clean = false → ∃ d, ch.data = some d ∧ d.length ≤ env.cs) ∧
      (P id → COK env s.w (s.f.mapping.get? id) ch))
    (hlog : (flushList env l s).2.w.log ⊆ L) :
    ∃ s', flushList env l s = (.ok (), s') ∧ WOK env s'.w ∧ Ext s.w s'.w ∧
      s'.f = { s.f with mapping := s'.f.mapping } ∧ MapOK s'.w s'.f.mapping ∧
      (∀ id, id ∉ Dict.keys l → s'.f.mapping.get? id = s.f.mapping.get? id) ∧
      (∀ id ch, (id, ch) ∈ l → P id → stored s'.w (s'.f.mapping.get? id) = cview s.w ch) := by
  induction l generalizing s with
  | nil => exact ⟨s, rfl, hw, Ext.refl _, rfl, hm, fun _ _ => rfl, by simp⟩
  | cons e l ih =>
    obtain ⟨id, c⟩ := e
    simp only [Dict.keys, List.map_cons, List.nodup_cons] at hn
    have hc0 := hc id c (by simp)
    cases hcl : c.clean with
    | true =>
      have hfl : c.flush env s.w = .ok (none, c, s.w) := by simp [Chunk.flush, hcl]
      have heq : flushList env ((id, c) :: l) s = flushList env l s := by
        rw [flushList]; simp [hfl]
      rw [heq] at hlog ⊢
      obtain ⟨s', h1, h2, h3, h4, h5, h6, h7⟩ :=
        ih s hw hm hn.2 (fun i x hx => hc i x (by simp [hx])) hlog
      refine ⟨s', h1, h2, h3, h4, h5, ?_, ?_⟩
      · intro i hi
        simp only [Dict.keys, List.map_cons, List.mem_cons, not_or] at hi
        exact h6 i hi.2
      · intro i ch hi hP
        simp only [List.mem_cons, Prod.mk.injEq] at hi
        rcases hi with ⟨rfl, rfl⟩ | hi
        · rw [h6 i hn.1, (hc0.2 hP).view hcl]
          exact stored_ext h3 (fun h hh => hm.get i h hh)
        · exact h7 i ch hi hP
    | false =>
      obtain ⟨d, hd, hlen⟩ := hc0.1 hcl
      have hlog0 : s.w.log ⊆ L := fun x hx => hlog (flushList_log env _ s hx)
      have hdL : d ∈ L := by
        apply hlog
        rw [flushList]
        have : ∃ r, c.flush env s.w = .ok r ∧ r.1 = some (env.H d) ∧ d ∈ r.2.2.log := by
          unfold Chunk.flush
          simp only [hcl, hd]
          refine ⟨_, rfl, rfl, ?_⟩
          dsimp only
          split <;> try split
          all_goals simp
        obtain ⟨⟨r1, r2, r3⟩, hr, hr1, hr2⟩ := this
        rw [hr]; dsimp only at hr1 hr2; rw [hr1]
        exact flushList_log env l _ hr2
      obtain ⟨c', w', hf, hw', he', hget, hwlog⟩ := Chunk.flush_ok hL hw hlog0 hcl hd hlen hdL
      have heq : flushList env ((id, c) :: l) s =
          flushList env l ⟨{ s.f with mapping := s.f.mapping.set id (env.H d) }, w'⟩ := by
        rw [flushList]; simp [hf]
      rw [heq] at hlog ⊢
      have hm' : MapOK w' (s.f.mapping.set id (env.H d)) := by
        intro h hh
        rcases Dict.mem_values_set hh with rfl | hh
        · exact ⟨d, hget⟩
        · obtain ⟨d', hd'⟩ := hm h hh
          exact ⟨d', he'.chunks _ _ hd'⟩
      have hc' : ∀ i ch, (i, ch) ∈ l →
          (ch.clean = false → ∃ d, ch.data = some d ∧ d.length ≤ env.cs) ∧
          (P i → COK env w' ((s.f.mapping.set id (env.H d)).get? i) ch) := by
        intro i ch hi
        refine ⟨(hc i ch (by simp [hi])).1, fun hP => ?_⟩
        have hne : i ≠ id := by
          rintro rfl
          exact hn.1 (List.mem_map.2 ⟨(i, ch), hi, rfl⟩)
        rw [Dict.get?_set_ne _ _ hne]
        exact ((hc i ch (by simp [hi])).2 hP).ext he' (fun h hh => hm.get i h hh)
      obtain ⟨s', h1, h2, h3, h4, h5, h6, h7⟩ :=
        ih ⟨{ s.f with mapping := s.f.mapping.set id (env.H d) }, w'⟩ hw' hm' hn.2 hc' hlog
      refine ⟨s', h1, h2, he'.trans h3, ?_, h5, ?_, ?_⟩
      · rw [h4]
      · intro i hi
        simp only [Dict.keys, List.map_cons, List.mem_cons, not_or] at hi
        rw [h6 i hi.2]
        exact Dict.get?_set_ne _ _ hi.1
      · intro i ch hi hP
        simp only [List.mem_cons, Prod.mk.injEq] at hi
        rcases hi with ⟨rfl, rfl⟩ | hi
        · rw [h6 i hn.1]
          simp only [Dict.get?_set_self, stored, h3.chunks _ _ hget, cview, hd, Option.getD_some]
        · rw [h7 i ch hi hP]
          exact cview_ext he' (fun h hh => hm.get i h hh) ((hc i ch (by simp [hi])).2 hP)

theorem flushChunks_ok {env : Env} {L : List Bytes} (hL : CollFree env.H L) (t : Nat)
    (s : S) (hb : Base env s) (hlog : (s.flushChunks env t).2.w.log ⊆ L) :
    ∃ s', s.flushChunks env t = (.ok (), s') ∧ Base env s' ∧ Ext s.w s'.w ∧
      s'.f = { s.f with mapping := s'.f.mapping, chunks := s'.f.chunks } ∧
      (∀ id, view s' id = view s id) ∧ (t = 0 → s'.f.chunks = []) := by
  unfold S.flushChunks at hlog ⊢
  by_cases hlt : s.f.chunks.length < 2 * t
  · simp only [hlt, if_true] at hlog ⊢
    exact ⟨s, rfl, hb, Ext.refl _, rfl, fun _ => rfl, by intro h; subst h; omega⟩
  · simp only [hlt, if_false] at hlog ⊢
    have hperm : s.f.sortedChunks.Perm s.f.chunks := sortBy_perm _ _
    have hnd : (Dict.keys s.f.sortedChunks).Nodup :=
      (hperm.map Prod.fst).nodup_iff.2 hb.nodup
    have hget : ∀ id, Dict.get? s.f.sortedChunks id = s.f.chunks.get? id := fun id =>
      (Dict.get?_perm hperm hnd id).symm
    generalize hsd : s.f.sortedChunks = sorted at *
    have hsplit : sorted = sorted.take t ++ sorted.drop t := (List.take_append_drop t sorted).symm
    have hnd' := hnd
    rw [hsplit] at hnd'
    simp only [Dict.keys, List.map_append, List.nodup_append] at hnd'
    obtain ⟨hn1, hn2, hdisj⟩ := hnd'
    have hmemget : ∀ id ch, (id, ch) ∈ sorted → s.f.chunks.get? id = some ch := by
      intro id ch h
      rw [← hget]; exact Dict.get?_of_mem hnd h
    have hc : ∀ id ch, (id, ch) ∈ sorted.drop t → COK env s.w (s.f.mapping.get? id) ch :=
      fun id ch h => hb.cok id ch (hmemget id ch (List.mem_of_mem_drop h))
    have hlog' : (flushList env (sorted.drop t) s).2.w.log ⊆ L := by
      intro x hx; apply hlog
      revert hx
      cases flushList env (sorted.drop t) s with
      | mk a b => cases a <;> exact id
    obtain ⟨s1, h1, h2, h3, h4, h5, h6, h7⟩ :=
      flushList_ok hL (fun _ => True) (sorted.drop t) s hb.wok hb.mapok hn2
        (fun id ch h => ⟨(hc id ch h).dirty, fun _ => hc id ch h⟩) hlog'
    rw [h1]
    have hkeep : ∀ id ch, Dict.get? (sorted.take t) id = some ch →
        s.f.chunks.get? id = some ch ∧ id ∉ Dict.keys (sorted.drop t) := by
      intro id ch h
      have hmem := Dict.mem_of_get? h
      refine ⟨hmemget id ch (List.mem_of_mem_take hmem), ?_⟩
      intro hk
      exact hdisj id (List.mem_map.2 ⟨_, hmem, rfl⟩) id hk rfl
    refine ⟨_, rfl, ⟨h2, hn1, h5, ?_⟩, h3, ?_, ?_, ?_⟩
    · intro id ch h
      obtain ⟨hk1, hk2⟩ := hkeep id ch h
      show COK env s1.w (s1.f.mapping.get? id) ch
      rw [h6 id hk2]
      exact (hb.cok id ch hk1).ext h3 (fun h hh => hb.mapok.get id h hh)
    · rw [h4]
    · intro id
      unfold view
      dsimp only
      cases hk : Dict.get? (sorted.take t) id with
      | some ch =>
        obtain ⟨hk1, hk2⟩ := hkeep id ch hk
        simp only [hk1]
        exact cview_ext h3 (fun h hh => hb.mapok.get id h hh) (hb.cok id ch hk1)
      | none =>
        dsimp only
        have hg : s.f.chunks.get? id = Dict.get? (sorted.drop t) id := by
          rw [← hget, hsplit, Dict.get?_append, hk]
          simp
        cases hd : Dict.get? (sorted.drop t) id with
        | some ch =>
          rw [hg, hd]
          exact h7 id ch (Dict.mem_of_get? hd) trivial
        | none =>
          rw [hg, hd]
          dsimp only
          rw [h6 id (Dict.get?_eq_none_iff.1 hd)]
          exact stored_ext h3 (fun h hh => hb.mapok.get id h hh)
    · rintro rfl; simp

/-- Flushing everything (`target = 0`) when only the chunks in `P` matter. -/
theorem flushAll_ok {env : Env} {L : List Bytes} (hL : CollFree env.H L) (P : Nat → Prop)
    (s : S) (hw : WOK env s.w) (hm : MapOK s.w s.f.mapping) (hn : s.f.chunks.keys.Nodup)
    (hc : ∀ id ch, s.f.chunks.get? id = some ch →
      (ch.clean = false → ∃ d, ch.data = some d ∧ d.length ≤ env.cs) ∧
      (P id → COK env s.w (s.f.mapping.get? id) ch))
    (hlog : (s.flushChunks env 0).2.w.log ⊆ L) :
    ∃ s', s.flushChunks env 0 = (.ok (), s') ∧ WOK env s'.w ∧ Ext s.w s'.w ∧
      MapOK s'.w s'.f.mapping ∧
      s'.f = { s.f with mapping := s'.f.mapping, chunks := [] } ∧
      (∀ id, P id → stored s'.w (s'.f.mapping.get? id) = view s id) := by
  unfold S.flushChunks at hlog ⊢
  simp only [Nat.mul_zero, Nat.not_lt_zero, if_false, List.drop_zero, List.take_zero] at hlog ⊢
  have hperm : s.f.sortedChunks.Perm s.f.chunks := sortBy_perm _ _
  have hnd : (Dict.keys s.f.sortedChunks).Nodup :=
    (hperm.map Prod.fst).nodup_iff.2 hn
  have hget : ∀ id, Dict.get? s.f.sortedChunks id = s.f.chunks.get? id := fun id =>
    (Dict.get?_perm hperm hnd id).symm
  generalize hsd : s.f.sortedChunks = sorted at *
  have hlog' : (flushList env sorted s).2.w.log ⊆ L := by
    intro x hx; apply hlog
    revert hx
    cases flushList env sorted s with
    | mk a b => cases a <;> exact id
  obtain ⟨s1, h1, h2, h3, h4, h5, h6, h7⟩ :=
    flushList_ok hL P sorted s hw hm hnd (fun id ch h => hc id ch (by
      rw [← hget]; exact Dict.get?_of_mem hnd h)) hlog'
  rw [h1]
  refine ⟨_, rfl, h2, h3, h5, by rw [h4], ?_⟩
  intro id hP
  dsimp only
  unfold view
  cases hg : s.f.chunks.get? id with
  | some ch =>
    exact h7 id ch (Dict.mem_of_get? (by rw [hget]; exact hg)) hP
  | none =>
    dsimp only
    rw [h6 id (Dict.get?_eq_none_iff.1 (by rw [hget]; exact hg))]
    exact stored_ext h3 (fun h hh => hm.get id h hh)

theorem flushList_chunks (env : Env) (l : List (Nat × Chunk)) (s : S) :
    (flushList env l s).2.f.chunks = s.f.chunks := by
  induction l generalizing s with
  | nil => rfl
  | cons e l ih =>
    obtain ⟨id, c⟩ := e
    unfold flushList
    split
    · rfl
    · split
      · exact ih _
      · exact ih _

theorem S.flushChunks_keys (env : Env) (t : Nat) (s : S) :
    ∀ k ∈ Dict.keys (s.flushChunks env t).2.f.chunks, k ∈ s.f.chunks.keys := by
  unfold S.flushChunks
  split
  · exact fun _ h => h
  · have hperm : s.f.sortedChunks.Perm s.f.chunks := sortBy_perm _ _
    have hfl := flushList_chunks env (s.f.sortedChunks.drop t) s
    dsimp only
    split
    · rename_i heq
      rw [heq] at hfl; rw [hfl]; exact fun _ h => h
    · intro k hk
      dsimp only at hk
      simp only [Dict.keys, List.mem_map] at hk ⊢
      obtain ⟨e, he, rfl⟩ := hk
      exact ⟨e, hperm.mem_iff.1 (List.mem_of_mem_take he), rfl⟩

/-- The world's clock and the access statistics are irrelevant for `Base`/`view`. -/
theorem currentChunk_ok {env : Env} {L : List Bytes} (hL : CollFree env.H L)
    (s : S) (hb : Base env s) (hlog : (s.currentChunk env).2.w.log ⊆ L) :
    ∃ s' ch, s.currentChunk env = (.ok (s.f.pos / env.cs, s.f.pos % env.cs), s') ∧ Base env s' ∧
      Ext s.w s'.w ∧
      s'.f = { s.f with mapping := s'.f.mapping, chunks := s'.f.chunks, stats := s'.f.stats } ∧
      (∀ id, view s' id = view s id) ∧ s'.f.chunks.get? (s.f.pos / env.cs) = some ch := by
  unfold S.currentChunk at hlog ⊢
  dsimp only at hlog ⊢
  by_cases hh : s.f.chunks.has (s.f.pos / env.cs) = true
  · simp only [hh, if_true]
    have : ∃ ch, s.f.chunks.get? (s.f.pos / env.cs) = some ch := by
      simpa [Dict.has, Option.isSome_iff_exists] using hh
    obtain ⟨ch, hch⟩ := this
    refine ⟨_, ch, rfl, ⟨⟨hb.wok.good, hb.wok.seen⟩, hb.nodup, hb.mapok, ?_⟩,
      ⟨fun _ _ h => h, rfl, rfl⟩, rfl, ?_, hch⟩
    · intro id c hc
      exact ⟨(hb.cok id c hc).dirty, (hb.cok id c hc).clean⟩
    · intro id; rfl
  · simp only [hh, Bool.false_eq_true, if_false] at hlog ⊢
    have hlog' : (s.flushChunks env flushTarget).2.w.log ⊆ L := by
      intro x hx; apply hlog
      revert hx
      cases s.flushChunks env flushTarget with
      | mk a b => cases a <;> exact id
    obtain ⟨s1, h1, h2, h3, h4, h5, _⟩ := flushChunks_ok hL flushTarget s hb hlog'
    rw [h1]
    dsimp only
    have hnone : s.f.chunks.get? (s.f.pos / env.cs) = none := by
      cases hg : s.f.chunks.get? (s.f.pos / env.cs) with
      | none => rfl
      | some x => simp [Dict.has, hg] at hh
    have hnone1 : True := trivial
    -- the new chunk object shows what the mapping says
    have hv : ∀ id, view ⟨{ s1.f with
        chunks := s1.f.chunks.set (s.f.pos / env.cs)
          (Chunk.new (s1.f.mapping.get? (s.f.pos / env.cs))) }, s1.w⟩ id = view s1 id ∨
        (id = s.f.pos / env.cs ∧ s1.f.chunks.get? id ≠ none) := by
      intro id
      by_cases hid : id = s.f.pos / env.cs
      · subst hid
        cases hg : s1.f.chunks.get? (s.f.pos / env.cs) with
        | none => left; simp [view, hg, cview, Chunk.new]
        | some x => right; simp
      · left; simp [view, Dict.get?_set_ne _ _ hid]
    have hn1 : s1.f.chunks.get? (s.f.pos / env.cs) = none := by
      have := S.flushChunks_keys env flushTarget s
      rw [h1] at this
      rw [Dict.get?_eq_none_iff] at hnone ⊢
      exact fun hk => hnone (this _ hk)
    refine ⟨_, _, rfl, ⟨⟨h2.wok.good, h2.wok.seen⟩, Dict.nodup_set h2.nodup _ _, h2.mapok, ?_⟩,
      ⟨h3.chunks, h3.metas, h3.force⟩, ?_, ?_, Dict.get?_set_self _ _ _⟩
    · intro id c hc
      dsimp only at hc ⊢
      rw [Dict.get?_set] at hc
      split at hc
      · rename_i hid; subst hid
        cases hc
        exact ⟨by simp [Chunk.new], fun _ => ⟨rfl, .inl rfl⟩⟩
      · exact ⟨(h2.cok id c hc).dirty, (h2.cok id c hc).clean⟩
    · rw [h4]
    · intro id
      rw [← h5 id]
      rcases hv id with h | ⟨rfl, h⟩
      · exact h
      · exact absurd hn1 h

end Verif.Chunked
