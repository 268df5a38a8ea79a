import Verif.Model.Backup
import Verif.Proofs.DiffApply
import Verif.Proofs.DiffCut
import Verif.Props.Diff
import Verif.Proofs.Files
import Verif.Proofs.Gc
import Verif.Proofs.Parent
/-! # What a backup does to the stored data, in every case and for faithful `rbd` output -/
namespace Verif.Backup
open Verif Verif.Chunked Verif.Spec Verif.Rbd Verif.Repo Verif.Files Verif.Diff

/-- An image opened for writing, with some content. -/
def Wr (env : Env) (s : S) : Prop := ∃ c pos r, R env s ⟨c, pos, r, true, false⟩

/-- The operations used to store an image. -/
def storing : Op → Bool
  | .seek _ _ => true
  | .write _ => true
  | .truncate => true
  | _ => false

theorem flat_storing (c : Bytes) (pos : Nat) (r : Bool) (op : Op) (h : storing op = true) :
    ∃ c' pos', ((⟨c, pos, r, true, false⟩ : Flat).step op).1 = ⟨c', pos', r, true, false⟩ := by
  cases op with
  | seek o wh =>
    simp only [Flat.step]
    rw [if_neg (by simp)]
    cases (⟨c, pos, r, true, false⟩ : Flat).target o wh with
    | none => exact ⟨_, _, rfl⟩
    | some t =>
      dsimp only
      split
      · exact ⟨_, _, rfl⟩
      · split
        · exact ⟨_, _, rfl⟩
        · exact ⟨_, _, rfl⟩
  | write d => exact ⟨c.take pos ++ d ++ c.drop (pos + d.length), pos + d.length, by simp [Flat.step]⟩
  | truncate => exact ⟨c.take pos, pos, by simp [Flat.step]⟩
  | read n => cases h
  | flush => cases h
  | tell => cases h
  | close => cases h

/-- Nothing else on disk is disturbed and the image stays open. -/
structure Keeps (env : Env) (s s' : S) : Prop where
  wr : Wr env s'
  ext : ExtN s.f.name s.w s'.w
  name : s'.f.name = s.f.name

theorem Keeps.trans {env : Env} {a b c : S} (h : Keeps env a b) (h' : Keeps env b c) : Keeps env a c :=
  ⟨h'.wr, h.ext.trans (by rw [← h.name]; exact h'.ext), h'.name.trans h.name⟩

theorem Keeps.refl {env : Env} {s : S} (h : Wr env s) : Keeps env s s := ⟨h, ExtN.refl _ _, rfl⟩

theorem exec_any {env : Env} {L : List Bytes} (hL : CollFree env.H L) (ops : List Op) :
    ∀ {s : S}, Wr env s → (∀ op ∈ ops, storing op = true) → (exec env ops s).2.w.log ⊆ L →
      Keeps env s (exec env ops s).2 := by
  induction ops with
  | nil => intro s h _ _; exact Keeps.refl h
  | cons op ops ih =>
    intro s h hops hlog
    obtain ⟨c, pos, r, hr⟩ := h
    unfold exec at hlog ⊢
    dsimp only at hlog ⊢
    have hsub : (s.step env op).1.w.log ⊆ L := by
      split at hlog
      · exact hlog
      · exact fun x hx => hlog (exec_log env ops _ hx)
    obtain ⟨e1, e2, e3, e4⟩ := step_ok hL hr op hsub
    obtain ⟨c', pos', hf⟩ := flat_storing c pos r op (hops op (by simp))
    rw [hf] at e1
    have hk : Keeps env s (s.step env op).1 := ⟨⟨c', pos', r, e1⟩, e3, e4⟩
    split
    · exact hk
    · rename_i heq
      rw [heq] at hlog
      exact hk.trans (ih hk.wr (fun o ho => hops o (by simp [ho])) hlog)

theorem applyRec_any {env : Env} {L : List Bytes} (hL : CollFree env.H L) (f t : Bytes) (r : Rec) {s : S}
    (h : Wr env s) (hlog : (applyRec env f t s r).2.w.log ⊆ L) : Keeps env s (applyRec env f t s r).2 := by
  cases r with
  | size n => exact exec_any hL _ h (by simp [storing]) hlog
  | fromSnap b => simp only [applyRec]; split <;> exact Keeps.refl h
  | toSnap b => simp only [applyRec]; split <;> exact Keeps.refl h
  | zero start length =>
    simp only [applyRec] at hlog ⊢
    have h1 := exec_log env [.seek start .set] s
    have hk := fun hl => exec_any hL [.seek start .set] h (by simp [storing]) hl
    generalize hg : exec env [.seek start .set] s = g at *
    obtain ⟨g1, s1⟩ := g
    cases g1 with
    | error e => exact hk hlog
    | ok u =>
      dsimp only at hlog hk ⊢
      unfold punchHole at hlog ⊢
      split
      · rename_i h0; rw [if_pos h0] at hlog; exact hk hlog
      · rename_i h0
        rw [if_neg h0] at hlog
        have hk' := hk (fun x hx => hlog (exec_log env _ _ hx))
        exact hk'.trans (exec_any hL _ hk'.wr (by simp [storing]) hlog)
  | data start n chunks =>
    refine exec_any hL _ h ?_ hlog
    intro op hop
    rcases List.mem_cons.1 hop with rfl | hop
    · rfl
    · obtain ⟨d, _, rfl⟩ := List.mem_map.1 hop; rfl

theorem applyRecs_any {env : Env} {L : List Bytes} (hL : CollFree env.H L) (f t : Bytes) (l : List Rec) :
    ∀ {s : S}, Wr env s → (applyRecs env f t l s).2.w.log ⊆ L → Keeps env s (applyRecs env f t l s).2 := by
  induction l with
  | nil => intro s h _; exact Keeps.refl h
  | cons r l ih =>
    intro s h hlog
    have hk := applyRec_any hL f t r h
    unfold applyRecs at hlog ⊢
    generalize hg : applyRec env f t s r = g at *
    obtain ⟨g1, s1⟩ := g
    cases g1 with
    | error e => exact hk hlog
    | ok u =>
      dsimp only at hlog hk ⊢
      have hk' := hk (fun x hx => hlog (applyRecs_log env f t l s1 hx))
      exact hk'.trans (ih hk'.wr hlog)

theorem integrate_any {env : Env} {L : List Bytes} (hL : CollFree env.H L) (stream f t : Bytes)
    {s : S} (h : Wr env s) (hlog : (integrate env stream f t s).2.w.log ⊆ L) :
    Keeps env s (integrate env stream f t s).2 := by
  have hk := applyRecs_any hL f t (decode env stream).1 h
  unfold integrate at hlog ⊢
  dsimp only at hlog ⊢
  generalize hg : applyRecs env f t (decode env stream).1 s = g at *
  obtain ⟨g1, s1⟩ := g
  cases g1 with
  | error e => exact hk hlog
  | ok u =>
    dsimp only at hlog hk ⊢
    cases hd : (decode env stream).2 with
    | none => rw [hd] at hlog; exact hk hlog
    | some e => rw [hd] at hlog; exact hk hlog

theorem full_log (env : Env) (out : Bytes) (s : S) : s.w.log ⊆ (full env out s).2.w.log := exec_log _ _ _

theorem full_any {env : Env} {L : List Bytes} (hL : CollFree env.H L) (out : Bytes)
    {s : S} (h : Wr env s) (hlog : (full env out s).2.w.log ⊆ L) : Keeps env s (full env out s).2 := by
  refine exec_any hL _ h ?_ hlog
  intro op hop
  obtain ⟨d, _, rfl⟩ := List.mem_map.1 hop; rfl

theorem transfer_log (env : Env) (o : Rbd) (uuid : String) (p : Option Rev) (s : S) :
    s.w.log ⊆ (transfer env o uuid p s).2.w.log := by
  cases p with
  | none => exact full_log _ _ _
  | some p => exact integrate_log _ _ _ _ _

theorem transfer_any {env : Env} {L : List Bytes} (hL : CollFree env.H L) (o : Rbd) (uuid : String)
    (p : Option Rev) {s : S} (h : Wr env s) (hlog : (transfer env o uuid p s).2.w.log ⊆ L) :
    Keeps env s (transfer env o uuid p s).2 := by
  cases p with
  | none => exact full_any hL _ h hlog
  | some p => exact integrate_any hL _ _ _ h hlog

/-- Appending pieces to an empty image. -/
theorem flat_appends (l : List Bytes) (c : Bytes) (r : Bool) :
    flatOK ⟨c, c.length, r, true, false⟩ (l.map .write) ∧
    (⟨c, c.length, r, true, false⟩ : Flat).run (l.map .write) =
      ⟨c ++ l.flatten, (c ++ l.flatten).length, r, true, false⟩ := by
  induction l generalizing c with
  | nil => simp [flatOK, Flat.run]
  | cons d l ih =>
    have hs : (⟨c, c.length, r, true, false⟩ : Flat).step (.write d) =
        (⟨c ++ d, (c ++ d).length, r, true, false⟩, .ok .unit) := by
      simp [Flat.step]
    obtain ⟨i1, i2⟩ := ih (c ++ d)
    constructor
    · simp only [List.map_cons, flatOK]
      rw [hs]
      exact ⟨⟨_, rfl⟩, i1⟩
    · simp only [List.map_cons, Flat.run, List.foldl_cons]
      rw [hs]
      unfold Flat.run at i2
      rw [i2]
      simp [List.append_assoc]

theorem full_ok {env : Env} {L : List Bytes} (hL : CollFree env.H L) (out : Bytes) {s : S} {r : Bool}
    (h : R env s ⟨[], 0, r, true, false⟩) (hlog : (full env out s).2.w.log ⊆ L) :
    ∃ s', full env out s = (.ok (), s') ∧ ∃ pos, R env s' ⟨out, pos, r, true, false⟩ ∧
      ExtN s.f.name s.w s'.w ∧ s'.f.name = s.f.name := by
  obtain ⟨f1, f2⟩ := flat_appends (streamChunks env.blk env.blk_pos out.length out).1 [] r
  obtain ⟨s', e1, e2, e3, e4⟩ := exec_ok hL _ h f1 hlog
  have hf : (streamChunks env.blk env.blk_pos out.length out).1.flatten = out := by
    have := streamChunks_append env.blk env.blk_pos out.length out [] rfl
    rw [List.append_nil] at this
    rw [this]
    exact (pieces_flatten _ _ _).1
  simp only [List.length_nil, List.nil_append] at f2
  rw [f2, hf] at e2
  exact ⟨s', e1, out.length, e2, e3, e4⟩

theorem containsDistrusted_false (s : Repo) : containsDistrusted s = false := by
  simp [containsDistrusted, revEqTrust]

/-- The content a new image starts with. -/
def startsAs (parent : Option Rev) (c : Bytes) : Bytes :=
  match parent with
  | none => []
  | some _ => c

theorem openWrite_ok {env : Env} {s : Src} {uuid : String} {parent : Option Rev} {c : Bytes} (hw : WOK env s.w)
    (hn : s.w.metas.get? uuid = none) (hp : ∀ p, parent = some p → OnDisk env s.w p.uuid c) :
    ∃ f w, openWrite s uuid parent = (.ok f, w) ∧ f.f.name = uuid ∧ f.w.log = s.w.log ∧ ExtN uuid s.w f.w ∧
      R env f ⟨startsAs parent c, 0, false, true, false⟩ := by
  unfold openWrite
  cases parent with
  | none =>
    obtain ⟨f, h1, h2, h3, h4⟩ := open_new hw hn wb rfl
    simp only [copyParent, h1, containsDistrusted_false]
    exact ⟨f, _, rfl, h3, by rw [h2], by rw [h2]; exact ExtN.refl _ _, h4⟩
  | some p =>
    have hd := hp p rfl
    obtain ⟨m, g1, g2, g3, g4⟩ := hd
    have hhas : s.w.metas.has uuid = false := by simp [Dict.has, hn]
    simp only [copyParent, hhas, g1]
    have hw' : WOK env { s.w with metas := s.w.metas.set uuid (some m) } := ⟨hw.good, hw.seen⟩
    have hd' : OnDisk env { s.w with metas := s.w.metas.set uuid (some m) } uuid c :=
      ⟨m, by simp, g2, g3, g4⟩
    obtain ⟨f, h1, h2, h3, h4⟩ := open_ok hw' hd' wb
    simp only [containsDistrusted_false, if_false, Bool.false_eq_true]
    rw [h1]
    refine ⟨f, _, rfl, h3, by rw [h2], ?_, h4⟩
    rw [h2]
    refine ⟨fun _ _ h => h, fun n hne => ?_, rfl⟩
    show (s.w.metas.set uuid (some m)).get? n = _
    rw [Dict.get?_set, if_neg hne]

/-- What `rbd` delivers is right or ends early in the middle of a diff: a full export is the image, a diff
stream is a beginning of a diff that describes the change. -/
structure Faithful (o : Rbd) (snaps : Dict String Bytes) (uuid : String) (image : Bytes) : Prop where
  full : o.exportOut = image
  diff : ∀ p c, snaps.get? (snapName p) = some c → ∃ d : Diff, ∃ k, d.Valid ∧
    d.Describes (ascii (snapName p)) (ascii (snapName uuid)) c image ∧ o.diffOut p = d.encode.take k

theorem closing_log (env : Env) (r : Except PyErr Unit × S) : r.2.w.log ⊆ (closing env r).2.log := by
  have h := S.close_log env r.2
  unfold closing
  split
  · rename_i heq; rw [heq] at h; exact h
  · rename_i heq; rw [heq] at h; exact h

theorem closing_ok {env : Env} {L : List Bytes} (hL : CollFree env.H L) {r : Except PyErr Unit × S} {c : Bytes}
    {pos : Nat} {rd : Bool} (h : R env r.2 ⟨c, pos, rd, true, false⟩) (hlog : (closing env r).2.log ⊆ L) :
    (closing env r).1 = r.1 ∧ WOK env (closing env r).2 ∧ OnDisk env (closing env r).2 r.2.f.name c ∧
      ExtN r.2.f.name r.2.w (closing env r).2 := by
  have hl : (r.2.close env).2.w.log ⊆ L := by
    unfold closing at hlog
    split at hlog
    · rename_i heq; rw [heq]; exact hlog
    · rename_i heq; rw [heq]; exact hlog
  obtain ⟨s', e1, e2, e3, e4⟩ := close_ok hL h rfl rfl hl
  unfold closing
  rw [e1]
  exact ⟨rfl, e2, e3, e4⟩

theorem writePhase_spec {env : Env} {L : List Bytes} (hL : CollFree env.H L) (o : Rbd) {s : Src} {uuid : String}
    {parent : Option Rev} {c : Bytes} (hw : WOK env s.w) (hn : s.w.metas.get? uuid = none)
    (hp : ∀ p, parent = some p → OnDisk env s.w p.uuid c)
    (hlog : (writePhase env o uuid parent s).2.log ⊆ L) :
    WOK env (writePhase env o uuid parent s).2 ∧ ExtN uuid s.w (writePhase env o uuid parent s).2 ∧
    s.w.log ⊆ (writePhase env o uuid parent s).2.log ∧
    ∀ (snaps : Dict String Bytes) (image : Bytes), Faithful o snaps uuid image →
      (∀ p, parent = some p → snaps.get? (snapName p.uuid) = some c) →
      (writePhase env o uuid parent s).1 = .ok () → OnDisk env (writePhase env o uuid parent s).2 uuid image := by
  obtain ⟨f, w, h1, h2, h3, h4, h5⟩ := openWrite_ok hw hn hp
  unfold writePhase at hlog ⊢
  rw [h1] at hlog ⊢
  dsimp only at hlog ⊢
  have hlt : (transfer env o uuid parent f).2.w.log ⊆ L := fun x hx => hlog (closing_log env _ hx)
  have hk := transfer_any hL o uuid parent ⟨_, _, _, h5⟩ hlt
  obtain ⟨c1, pos1, r1, hr⟩ := hk.wr
  obtain ⟨k1, k2, k3, k4⟩ := closing_ok hL hr hlog
  have hname : (transfer env o uuid parent f).2.f.name = uuid := hk.name.trans h2
  refine ⟨k2, ?_, ?_, ?_⟩
  · have x1 : ExtN uuid f.w (transfer env o uuid parent f).2.w := by
      have := hk.ext; rwa [h2] at this
    rw [hname] at k4
    exact (h4.trans x1).trans k4
  · intro x hx
    rw [← h3] at hx
    exact closing_log env _ (transfer_log env o uuid parent f hx)
  · intro snaps image hf hsn hok
    rw [k1] at hok
    cases parent with
    | none =>
      simp only [transfer] at hok hlt hname hlog ⊢
      rw [hf.full] at hok hlt hname hlog ⊢
      obtain ⟨s', e1, pos, e2, e3, e4⟩ := full_ok hL image h5 hlt
      have hr' : R env (full env image f).2 ⟨image, pos, false, true, false⟩ := by rw [e1]; exact e2
      obtain ⟨_, _, q3, _⟩ := closing_ok hL hr' hlog
      rw [hname] at q3
      exact q3
    | some p =>
      simp only [transfer] at hok hlt hname hlog ⊢
      obtain ⟨d, k, hv, hd, hdo⟩ := hf.diff p.uuid c (hsn p rfl)
      by_cases hk : k < d.encode.length
      · obtain ⟨e, he⟩ := C10_truncated_rejected env d hv k hk (ascii (snapName p.uuid)) (ascii (snapName uuid)) f
        rw [hdo, he] at hok
        cases hok
      · rw [List.take_of_length_le (by omega)] at hdo
        rw [hdo] at hok hlt hname hlog ⊢
        obtain ⟨s', pos, e1, e2, e3, e4⟩ := integrate_ok hL d hv _ _ c image hd h5 hlt
        have hr' : R env (integrate env d.encode (ascii (snapName p.uuid)) (ascii (snapName uuid)) f).2
            ⟨image, pos, false, true, false⟩ := by rw [e1]; exact e2
        obtain ⟨_, _, q3, _⟩ := closing_ok hL hr' hlog
        rw [hname] at q3
        exact q3

theorem roughLoop_ticked {env : Env} (bs : Nat) (expired : Nat → Bool) (sample : List Nat) :
    ∀ (i : Nat) (a : PFile) {s : S}, Quiet s → Ticked s.w (roughLoop env bs expired sample i a s).2.w := by
  induction sample with
  | nil => intro i a s h; exact Ticked.refl _
  | cons b l ih =>
    intro i a s h
    unfold roughLoop
    split
    · exact Ticked.refl _
    · obtain ⟨q1, t1⟩ := h.seek (env := env) (b * bs : Nat) .set
      generalize hg : s.seek env (b * bs : Nat) .set = g at *
      obtain ⟨g1, s1⟩ := g
      cases g1 with
      | error e => exact t1
      | ok u =>
        obtain ⟨q2, t2⟩ := q1.read (env := env) (bs : Int)
        dsimp only
        generalize hg2 : readS env bs s1 = g2
        have hg2' : s1.read env (bs : Int) = g2 := hg2
        dsimp only at q2 t2 t1
        rw [hg2'] at q2 t2
        obtain ⟨g3, s2⟩ := g2
        cases g3 with
        | error e => exact t1.trans t2
        | ok cb =>
          dsimp only
          split
          · exact (t1.trans t2).trans (ih _ _ q2)
          · exact t1.trans t2

theorem verifyPhase_ticked (env : Env) (o : Rbd) (uuid : String) (snap : Bytes) (w : World) :
    Ticked w (verifyPhase env o uuid snap w).2 := by
  unfold verifyPhase
  cases hf : File.open w uuid rb with
  | error e => exact Ticked.refl _
  | ok s =>
    obtain ⟨hq, hw⟩ := Quiet.open (mode := rb) rfl hf
    dsimp only
    split
    · rw [hw]; exact Ticked.refl _
    · have ht := roughLoop_ticked (env := env) env.cs o.expired o.sample 0 ⟨snap, snap.length⟩ hq
      rw [hw] at ht
      unfold filesAreRoughlyEqual
      generalize hg : roughLoop env env.cs o.expired o.sample 0 ⟨snap, snap.length⟩ s = g at *
      obtain ⟨g1, s1⟩ := g
      cases g1 with
      | error e => exact ht
      | ok x =>
        obtain ⟨b, l⟩ := x
        dsimp only
        split <;> exact ht

theorem Ticked.ext {w w' : World} (h : Ticked w w') (n : String) : ExtN n w w' := by
  rw [h]; exact ⟨fun _ _ h => h, fun _ _ => rfl, rfl⟩
theorem Ticked.wok {env : Env} {w w' : World} (h : Ticked w w') (hw : WOK env w) : WOK env w' := by
  rw [h]; exact ⟨hw.good, hw.seen⟩
theorem Ticked.onDisk {env : Env} {w w' : World} (h : Ticked w w') {n : String} {c : Bytes}
    (hd : OnDisk env w n c) : OnDisk env w' n c := by
  rw [h]; exact hd
theorem Ticked.log {w w' : World} (h : Ticked w w') : w'.log = w.log := by rw [h]

end Verif.Backup
