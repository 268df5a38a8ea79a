import Verif.Proofs.BackupData
/-! # Images have no entries behind their end -/
namespace Verif.Chunked
open Verif

/-- Every entry of a mapping begins within the image or at its end, and none occurs twice. -/
structure Within (cs : Nat) (mapping : Dict Nat Hash) (size : Nat) : Prop where
  nodup : mapping.keys.Nodup
  within : ∀ id ∈ mapping.keys, id * cs ≤ size

/-- The same for an open image, with its position and the chunks in memory. -/
structure Fits (env : Env) (f : File) : Prop where
  pos : f.pos ≤ f.size
  map : Within env.cs f.mapping f.size
  cached : ∀ id ∈ Dict.keys f.chunks, id * env.cs ≤ f.size

theorem Dict.mem_keys_set {K V : Type} [DecidableEq K] {d : Dict K V} {k a : K} {v : V} (h : k ∈ (d.set a v).keys) :
    k = a ∨ k ∈ d.keys := by
  rw [Dict.mem_keys_iff, Dict.get?_set] at h
  split at h
  · rename_i e; exact .inl e
  · exact .inr (Dict.mem_keys_iff.2 h)

theorem Within.set {cs : Nat} {mapping : Dict Nat Hash} {size : Nat} (h : Within cs mapping size) {id : Nat} {x : Hash}
    (hid : id * cs ≤ size) : Within cs (mapping.set id x) size := by
  refine ⟨?_, fun k hk => ?_⟩
  · exact Dict.nodup_set h.nodup _ _
  · rcases Dict.mem_keys_set hk with rfl | hk
    · exact hid
    · exact h.within k hk

theorem flushList_fits (env : Env) (l : List (Nat × Chunk)) (s : S) (size : Nat) (hl : ∀ x ∈ l, x.1 * env.cs ≤ size)
    (h : Within env.cs s.f.mapping size) (s' : S) (hs : flushList env l s = (.ok (), s')) :
    Within env.cs s'.f.mapping size ∧ s'.f.pos = s.f.pos ∧ s'.f.size = s.f.size ∧ s'.f.name = s.f.name := by
  induction l generalizing s with
  | nil => cases hs; exact ⟨h, rfl, rfl, rfl⟩
  | cons e l ih =>
    obtain ⟨id, c⟩ := e
    unfold flushList at hs
    split at hs
    · cases hs
    · split at hs
      · rename_i w _ _
        exact ih ⟨s.f, w⟩ (fun x hx => hl x (by simp [hx])) h hs
      · rename_i w _ x _
        exact ih ⟨{ s.f with mapping := s.f.mapping.set id x }, w⟩ (fun x hx => hl x (by simp [hx])) (h.set (hl _ (List.mem_cons_self ..))) hs

theorem mem_keys_of_mem {K V : Type} {d : Dict K V} {x : K × V} (h : x ∈ d) : x.1 ∈ d.keys := List.mem_map.2 ⟨x, h, rfl⟩

theorem sorted_key {f : File} {x : Nat × Chunk} (h : x ∈ f.sortedChunks) : x.1 ∈ Dict.keys f.chunks :=
  mem_keys_of_mem ((sortBy_perm _ _).mem_iff.1 h)

theorem flushChunks_fits (env : Env) (t : Nat) (s : S) (h : Fits env s.f) (s' : S) (hs : s.flushChunks env t = (.ok (), s')) :
    Fits env s'.f ∧ s'.f.pos = s.f.pos ∧ s'.f.size = s.f.size ∧ s'.f.name = s.f.name ∧ (t = 0 → s'.f.chunks = []) := by
  unfold S.flushChunks at hs
  split at hs
  · cases hs
    refine ⟨h, rfl, rfl, rfl, fun ht => ?_⟩
    rename_i hlt; omega
  · dsimp only at hs
    split at hs
    · cases hs
    · rename_i s1 heq
      cases hs
      obtain ⟨h1, h2, h3, h4⟩ := flushList_fits env _ s s.f.size
        (fun x hx => h.cached _ (sorted_key (List.mem_of_mem_drop hx))) h.map s1 heq
      refine ⟨⟨by dsimp only; rw [h2, h3]; exact h.pos, by dsimp only; rw [h3]; exact h1, fun id hid => ?_⟩, h2, h3, h4, fun ht => by rw [ht]; rfl⟩
      dsimp only at hid ⊢
      rw [h3]
      obtain ⟨x, hx, rfl⟩ := List.mem_map.1 hid
      exact h.cached _ (sorted_key (List.mem_of_mem_take hx))

theorem currentChunk_fits (env : Env) (s : S) (h : Fits env s.f) (x : Nat × Nat) (s' : S) (hs : s.currentChunk env = (.ok x, s')) :
    Fits env s'.f ∧ s'.f.pos = s.f.pos ∧ s'.f.size = s.f.size ∧ s'.f.name = s.f.name ∧ x.1 * env.cs ≤ s.f.size := by
  have hid : s.f.pos / env.cs * env.cs ≤ s.f.size := (Nat.div_mul_le_self _ _).trans h.pos
  unfold S.currentChunk at hs
  dsimp only at hs
  split at hs
  · cases hs
  · rename_i s1 heq
    cases hs
    split at heq
    · cases heq
      exact ⟨⟨h.pos, h.map, h.cached⟩, rfl, rfl, rfl, hid⟩
    · split at heq
      · cases heq
      · rename_i s2 heq2
        cases heq
        obtain ⟨h1, h2, h3, h4, _⟩ := flushChunks_fits env _ s h s2 heq2
        refine ⟨⟨h1.pos, h1.map, fun k hk => ?_⟩, h2, h3, h4, hid⟩
        dsimp only at hk ⊢
        rcases Dict.mem_keys_set hk with rfl | hk
        · rw [h3]; exact hid
        · exact h1.cached k hk

theorem writeLoop_fits (env : Env) (data : Bytes) (s : S) (h : Fits env s.f) (s' : S) (hs : s.writeLoop env data = (.ok (), s')) :
    Fits env s'.f ∧ s'.f.name = s.f.name := by
  induction hn : data.length using Nat.strong_induction_on generalizing data s with
  | _ n ih =>
    unfold S.writeLoop at hs
    split at hs
    · cases hs; exact ⟨h, rfl⟩
    · split at hs
      · cases hs
      · rename_i id off s1 heq
        obtain ⟨h1, h2, h3, h4, h5⟩ := currentChunk_fits env s h _ s1 heq
        split at hs
        · cases hs
        · split at hs
          · cases hs
          · split at hs
            · rename_i hlt
              dsimp only at hs
              have hk : ∀ (f : File) (c : Chunk) (n : Nat), Fits env f → id * env.cs ≤ f.size →
                  Fits env { f with chunks := f.chunks.set id c, pos := f.pos + n, size := max f.size (f.pos + n) } := by
                intro f c n hf hi
                refine ⟨Nat.le_max_right _ _, ⟨hf.map.nodup, fun k hk => (hf.map.within k hk).trans (Nat.le_max_left _ _)⟩, fun k hk => ?_⟩
                rcases Dict.mem_keys_set hk with rfl | hk
                · exact hi.trans (Nat.le_max_left _ _)
                · exact (hf.cached k hk).trans (Nat.le_max_left _ _)
              obtain ⟨i1, i2⟩ := ih _ (by rw [← hn]; exact hlt) _ _ (hk s1.f _ _ h1 (by rw [h3]; exact h5)) hs rfl
              exact ⟨i1, i2.trans h4⟩
            · cases hs

theorem write_fits (env : Env) (data : Bytes) (s : S) (h : Fits env s.f) (s' : S) (hs : s.write env data = (.ok (), s')) :
    Fits env s'.f ∧ s'.f.name = s.f.name := by
  unfold S.write at hs
  split at hs
  · cases hs
  · exact writeLoop_fits env data s h s' hs

theorem fill_fits (env : Env) (n : Nat) (s : S) (h : Fits env s.f) (s' : S) (hs : s.fill env n = (.ok (), s')) :
    Fits env s'.f ∧ s'.f.name = s.f.name := by
  induction hn : n using Nat.strong_induction_on generalizing n s with
  | _ m ih =>
    unfold S.fill at hs
    split at hs
    · cases hs; exact ⟨h, rfl⟩
    · dsimp only at hs
      split at hs
      · cases hs
      · rename_i hz s1 heq
        obtain ⟨h1, h2⟩ := write_fits env _ s h s1 heq
        obtain ⟨i1, i2⟩ := ih _ (by have := env.blk_pos; omega) _ _ h1 hs rfl
        exact ⟨i1, i2.trans h2⟩

/-- A successful seek. Either nothing was written, or the image was extended up to the new position. -/
theorem seek_fits (env : Env) (o : Int) (wh : Whence) (s : S) (h : Fits env s.f) (n : Nat) (s' : S) (hs : s.seek env o wh = (.ok n, s')) :
    Fits env s'.f ∧ s'.f.name = s.f.name ∧ (s'.f.chunks = s.f.chunks ∨ s'.f.pos = s'.f.size) := by
  unfold S.seek at hs
  split at hs
  · cases hs
  · split at hs
    · cases hs
    · split at hs
      · cases hs
      · dsimp only at hs
        split at hs
        · split at hs
          · cases hs
          · rename_i s1 heq
            obtain ⟨h1, h2⟩ := fill_fits env _ (s := { s with f := { s.f with pos := s.f.size } }) ⟨le_refl _, h.map, h.cached⟩ s1 heq
            split at hs
            · rename_i hp
              cases hs
              exact ⟨h1, h2, .inr (by omega)⟩
            · cases hs
        · cases hs
          exact ⟨⟨by dsimp only; omega, h.map, h.cached⟩, rfl, .inl rfl⟩

/-- A successful `flush`: the mapping that is stored. -/
theorem flush_fits (env : Env) (s : S) (h : Fits env s.f) (s' : S) (hs : s.flush env = (.ok (), s')) :
    Fits env s'.f ∧ s'.f.name = s.f.name ∧ s'.f.chunks = [] ∧ s'.w.metas.get? s.f.name = some (some ⟨s'.f.mapping, s'.f.size⟩) := by
  unfold S.flush at hs
  split at hs
  · cases hs
  · split at hs
    · cases hs
    · rename_i s1 heq
      cases hs
      obtain ⟨h1, h2, h3, h4, h5⟩ := flushChunks_fits env 0 s h s1 heq
      refine ⟨⟨h1.pos, h1.map, h1.cached⟩, h4, h5 rfl, ?_⟩
      dsimp only
      rw [h4]; simp

/-- `truncate` at the position, when nothing in memory lies behind it. -/
theorem truncate_fits (env : Env) (s : S) (h : Fits env s.f) (hc : s.f.chunks = [] ∨ s.f.pos = s.f.size) (s' : S)
    (hs : s.truncate env none = (.ok (), s')) : Fits env s'.f ∧ s'.f.name = s.f.name ∧ s'.f.chunks = [] := by
  unfold S.truncate at hs
  split at hs
  · cases hs
  · dsimp only [Option.getD_none] at hs
    have hf : Fits env { s.f with size := s.f.pos, mapping := s.f.mapping.filter (fun e => decide (¬ e.1 * env.cs > s.f.pos)) } := by
      refine ⟨le_refl _, ⟨Dict.nodup_filter h.map.nodup _, ?_⟩, ?_⟩
      · intro id hid
        obtain ⟨x, hx, rfl⟩ := List.mem_map.1 hid
        have := List.of_mem_filter hx
        simpa using this
      · intro id hid
        dsimp only at hid ⊢
        rcases hc with hc | hc
        · rw [hc] at hid; cases hid
        · rw [hc]; exact h.cached id hid
    obtain ⟨h1, h2, h3, _⟩ := flush_fits env _ hf s' hs
    exact ⟨h1, h2, h3⟩

/-! ### Storing an image -/

end Verif.Chunked

namespace Verif.Backup
open Verif Verif.Chunked Verif.Spec Verif.Rbd Verif.Repo Verif.Files Verif.Diff

theorem outOf_ok {α : Type} {f : α → Out} {x : Except PyErr α × S} {o : Out} {s' : S} (h : outOf f x = (s', .ok o)) :
    ∃ a, x = (.ok a, s') := by
  obtain ⟨x, s⟩ := x
  cases x with
  | error e => simp [outOf] at h
  | ok a => simp only [outOf, Prod.mk.injEq] at h; exact ⟨a, by rw [h.1]⟩

/-- Seeks and writes that succeed. -/
theorem exec_fits (env : Env) (ops : List Op) (s : S) (h : Fits env s.f)
    (ho : ∀ op ∈ ops, (∃ o wh, op = .seek o wh) ∨ ∃ d, op = .write d) (s' : S) (hs : exec env ops s = (.ok (), s')) :
    Fits env s'.f ∧ s'.f.name = s.f.name := by
  induction ops generalizing s with
  | nil => cases hs; exact ⟨h, rfl⟩
  | cons op ops ih =>
    unfold exec at hs
    dsimp only at hs
    split at hs
    · cases hs
    · rename_i out heq
      have key : Fits env (s.step env op).1.f ∧ (s.step env op).1.f.name = s.f.name := by
        generalize hg : s.step env op = g at *
        obtain ⟨s1, r⟩ := g
        dsimp only at heq ⊢
        subst heq
        rcases ho op (by simp) with ⟨o, wh, rfl⟩ | ⟨d, rfl⟩
        · obtain ⟨n, hn⟩ := outOf_ok hg
          obtain ⟨a, b, _⟩ := seek_fits env o wh s h n s1 hn
          exact ⟨a, b⟩
        · obtain ⟨_, hn⟩ := outOf_ok hg
          exact write_fits env d s h s1 hn
      obtain ⟨a, b⟩ := ih _ key.1 (fun op hop => ho op (by simp [hop])) hs
      exact ⟨a, b.trans key.2⟩

theorem size_fits (env : Env) (f t : Bytes) (n : Nat) (s : S) (h : Fits env s.f) (hc : s.f.chunks = []) (s' : S)
    (hs : applyRec env f t s (.size n) = (.ok (), s')) : Fits env s'.f ∧ s'.f.name = s.f.name ∧ s'.f.chunks = [] := by
  simp only [applyRec, exec] at hs
  split at hs
  · cases hs
  · rename_i out heq
    generalize hg : s.step env (.seek n .set) = g at *
    obtain ⟨s1, r⟩ := g
    dsimp only at heq hs
    subst heq
    obtain ⟨k, hn⟩ := outOf_ok hg
    obtain ⟨a, b, c⟩ := seek_fits env n .set s h k s1 hn
    split at hs
    · cases hs
    · rename_i out2 heq
      generalize hg2 : s1.step env .truncate = g at *
      obtain ⟨s2, r2⟩ := g
      dsimp only at heq hs
      subst heq
      cases hs
      obtain ⟨_, hn2⟩ := outOf_ok hg2
      obtain ⟨x, y, z⟩ := truncate_fits env s1 a (by rw [hc] at c; exact c) s' hn2
      exact ⟨x, y.trans b, z⟩

theorem metas_fits (env : Env) (f t : Bytes) (l : List MetaRec) (s : S) (h : Fits env s.f) (hc : s.f.chunks = []) (s' : S)
    (hs : applyRecs env f t (l.map MetaRec.rec) s = (.ok (), s')) : Fits env s'.f ∧ s'.f.name = s.f.name := by
  induction l generalizing s with
  | nil => cases hs; exact ⟨h, rfl⟩
  | cons m l ih =>
    rw [List.map_cons] at hs
    unfold applyRecs at hs
    split at hs
    · cases hs
    · rename_i s1 heq
      have key : Fits env s1.f ∧ s1.f.name = s.f.name ∧ s1.f.chunks = [] := by
        cases m with
        | size n => exact size_fits env f t n s h hc s1 heq
        | fromSnap b =>
          change (if b = f then (.ok (), s) else (.error PyErr.assertion, s)) = (Except.ok (), s1) at heq
          split at heq
          · cases heq; exact ⟨h, rfl, hc⟩
          · cases heq
        | toSnap b =>
          change (if b = t then (.ok (), s) else (.error PyErr.assertion, s)) = (Except.ok (), s1) at heq
          split at heq
          · cases heq; exact ⟨h, rfl, hc⟩
          · cases heq
      obtain ⟨a, b⟩ := ih s1 key.1 key.2.2 hs
      exact ⟨a, b.trans key.2.1⟩

theorem datas_fits (env : Env) (f t : Bytes) (l : List DataRec) (s : S) (h : Fits env s.f) (s' : S)
    (hs : applyRecs env f t (l.map (DataRec.rec env)) s = (.ok (), s')) : Fits env s'.f ∧ s'.f.name = s.f.name := by
  induction l generalizing s with
  | nil => cases hs; exact ⟨h, rfl⟩
  | cons m l ih =>
    rw [List.map_cons] at hs
    unfold applyRecs at hs
    split at hs
    · cases hs
    · rename_i s1 heq
      have key : Fits env s1.f ∧ s1.f.name = s.f.name := by
        cases m with
        | data start p =>
          change exec env (.seek start .set :: (pieces env.blk env.blk_pos p).map .write) s = _ at heq
          refine exec_fits env _ s h ?_ s1 heq
          intro op hop
          rcases List.mem_cons.1 hop with rfl | hop
          · exact .inl ⟨_, _, rfl⟩
          · obtain ⟨d, _, rfl⟩ := List.mem_map.1 hop; exact .inr ⟨d, rfl⟩
        | zero start n =>
          change applyRec env f t s (.zero start n) = _ at heq
          simp only [applyRec] at heq
          split at heq
          · cases heq
          · rename_i s2 heq2
            obtain ⟨a, b⟩ := exec_fits env _ s h (by simp) s2 heq2
            unfold punchHole at heq
            split at heq
            · cases heq
            · obtain ⟨c, d⟩ := exec_fits env _ s2 a (by simp) s1 heq
              exact ⟨c, d.trans b⟩
      obtain ⟨a, b⟩ := ih s1 key.1 hs
      exact ⟨a, b.trans key.2⟩

theorem integrate_fits (env : Env) (d : Diff) (hv : d.Valid) (f t : Bytes) (s : S) (h : Fits env s.f) (hc : s.f.chunks = []) (s' : S)
    (hs : integrate env d.encode f t s = (.ok (), s')) : Fits env s'.f ∧ s'.f.name = s.f.name := by
  obtain ⟨fuel, hfuel, hdec⟩ := decode_datas env d hv [101]
  have henc : d.encode = diffHeader ++ encMetas d.metas ++ encDatas d.datas ++ [101] := rfl
  rw [← henc] at hdec
  have hend : ∀ phase, readRecords env fuel phase [101] = ([], none) := by
    intro phase
    obtain ⟨k, rfl⟩ : ∃ k, fuel = k + 1 := ⟨fuel - 1, by simp at hfuel; omega⟩
    simp [readRecords, readRecord]
  rw [hend, List.append_nil] at hdec
  unfold integrate at hs
  rw [hdec] at hs
  dsimp only at hs
  rw [applyRecs_append] at hs
  generalize hg : applyRecs env f t (d.metas.map MetaRec.rec) s = g at *
  obtain ⟨r, s1⟩ := g
  cases r with
  | error e => cases hs
  | ok u =>
    dsimp only at hs
    obtain ⟨a, b⟩ := metas_fits env f t d.metas s h hc s1 hg
    generalize hg2 : applyRecs env f t (d.datas.map (DataRec.rec env)) s1 = g at *
    obtain ⟨r, s2⟩ := g
    cases r with
    | error e => cases hs
    | ok u =>
      cases hs
      obtain ⟨c, e⟩ := datas_fits env f t d.datas s1 a s' hg2
      exact ⟨c, e.trans b⟩

theorem full_fits (env : Env) (out : Bytes) (s : S) (h : Fits env s.f) (s' : S) (hs : full env out s = (.ok (), s')) :
    Fits env s'.f ∧ s'.f.name = s.f.name := by
  unfold full at hs
  refine exec_fits env _ s h ?_ s' hs
  intro op hop
  obtain ⟨d, _, rfl⟩ := List.mem_map.1 hop; exact .inr ⟨d, rfl⟩

/-- The stored mapping of an image has no entry behind the end of the image, and none twice. -/
def Tidy (env : Env) (w : World) (n : String) : Prop :=
  ∀ m, w.metas.get? n = some (some m) → Within env.cs m.mapping m.size

theorem closing_tidy (env : Env) (x : Except PyErr Unit × S) (h : Fits env x.2.f) (hok : (closing env x).1 = .ok ())
    (hw : x.2.f.mode.w = true) : Tidy env (closing env x).2 x.2.f.name := by
  unfold closing at hok ⊢
  generalize hg : x.2.close env = g at *
  obtain ⟨r, s'⟩ := g
  cases r with
  | error e => cases hok
  | ok u =>
    dsimp only
    unfold S.close at hg
    split at hg
    · cases hg
    · split at hg
      · cases hg
      · rename_i s1 heq
        cases hg
        obtain ⟨a, b, c, d⟩ := flush_fits env x.2 h s1 heq
        intro m hm
        dsimp only at hm
        rw [d] at hm
        cases hm
        exact a.map

theorem openWrite_fits {env : Env} {s : Src} {uuid : String} {parent : Option Rev} (hn : s.w.metas.get? uuid = none)
    (ht : ∀ p, parent = some p → Tidy env s.w p.uuid) (f : S) (w : World) (h : openWrite s uuid parent = (.ok f, w)) :
    Fits env f.f ∧ f.f.chunks = [] := by
  have hhas : s.w.metas.has uuid = false := by simp [Dict.has, hn]
  have key : ∀ (w : World) (g : S), (∀ m, w.metas.get? uuid = some (some m) → Within env.cs m.mapping m.size) →
      File.open w uuid wb = .ok g → Fits env g.f ∧ g.f.chunks = [] := by
    intro w g hw hg
    unfold File.open at hg
    split at hg
    · split at hg
      · cases hg
      · cases hg
        exact ⟨⟨Nat.le_refl _, ⟨List.nodup_nil, by simp [Dict.keys]⟩, by simp [Dict.keys]⟩, rfl⟩
    · cases hg
    · rename_i m hm
      cases hg
      refine ⟨⟨?_, hw m hm, by simp [Dict.keys]⟩, rfl⟩
      dsimp only
      split <;> omega
  unfold openWrite at h
  cases parent with
  | none =>
    simp only [copyParent, containsDistrusted_false] at h
    split at h
    · cases h
    · rename_i g heq
      cases h
      exact key _ _ (fun m hm => by rw [hn] at hm; cases hm) heq
  | some p =>
    simp only [copyParent, hhas, containsDistrusted_false] at h
    cases hm : s.w.metas.get? p.uuid with
    | none => rw [hm] at h; cases h
    | some x =>
      rw [hm] at h
      dsimp only at h
      split at h
      · cases h
      · rename_i w' heq0
        cases heq0
        split at h
        · cases h
        · rename_i g heq
          cases h
          refine key _ _ (fun m hm' => ?_) heq
          simp at hm'
          subst hm'
          exact ht p rfl m hm

theorem transfer_fits {env : Env} {o : Rbd} {uuid : String} {parent : Option Rev} {f : S} (h : Fits env f.f) (hc : f.f.chunks = [])
    (hd : ∀ p, parent = some p → ∃ d : Diff, d.Valid ∧ ∃ k, o.diffOut p.uuid = d.encode.take k) (f' : S)
    (hs : transfer env o uuid parent f = (.ok (), f')) : Fits env f'.f ∧ f'.f.name = f.f.name := by
  cases parent with
  | none => exact full_fits env _ f h f' hs
  | some p =>
    obtain ⟨d, hv, k, hk⟩ := hd p rfl
    simp only [transfer] at hs
    rw [hk] at hs
    by_cases hlt : k < d.encode.length
    · obtain ⟨e, he⟩ := C10_truncated_rejected env d hv k hlt (ascii (snapName p.uuid)) (ascii (snapName uuid)) f
      rw [hs] at he
      cases he
    · rw [List.take_of_length_le (by omega)] at hs
      exact integrate_fits env d hv _ _ f h hc f' hs

theorem writePhase_tidy {env : Env} {L : List Bytes} (hL : CollFree env.H L) (o : Rbd) {s : Src} {uuid : String}
    {parent : Option Rev} {c : Bytes} (hw : WOK env s.w) (hn : s.w.metas.get? uuid = none)
    (hp : ∀ p, parent = some p → OnDisk env s.w p.uuid c) (hlog : (writePhase env o uuid parent s).2.log ⊆ L)
    (ht : ∀ p, parent = some p → Tidy env s.w p.uuid)
    (hd : ∀ p, parent = some p → ∃ d : Diff, d.Valid ∧ ∃ k, o.diffOut p.uuid = d.encode.take k)
    (hok : (writePhase env o uuid parent s).1 = .ok ()) : Tidy env (writePhase env o uuid parent s).2 uuid := by
  obtain ⟨f, w, h1, h2, h3, h4, h5⟩ := openWrite_ok hw hn hp
  obtain ⟨g1, g2⟩ := openWrite_fits (env := env) hn ht f w h1
  unfold writePhase at hlog hok ⊢
  rw [h1] at hlog hok ⊢
  dsimp only at hlog hok ⊢
  have hlt : (transfer env o uuid parent f).2.w.log ⊆ L := fun x hx => hlog (closing_log env _ hx)
  have hk := transfer_any hL o uuid parent ⟨_, _, _, h5⟩ hlt
  obtain ⟨c1, pos1, r1, hr⟩ := hk.wr
  obtain ⟨k1, k2, k3, k4⟩ := closing_ok hL hr hlog
  have hname : (transfer env o uuid parent f).2.f.name = uuid := hk.name.trans h2
  have hok' := hok
  rw [k1] at hok'
  have hfit := transfer_fits (o := o) (uuid := uuid) g1 g2 hd (transfer env o uuid parent f).2 (by rw [← hok'])
  have := closing_tidy env (transfer env o uuid parent f) hfit.1 hok hr.w
  rwa [hname] at this

theorem Ticked.tidy {env : Env} {w w' : World} (h : Ticked w w') {n : String} (hd : Tidy env w n) : Tidy env w' n := by
  rw [h]; exact hd

end Verif.Backup
