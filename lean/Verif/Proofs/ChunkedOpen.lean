import Verif.Proofs.ChunkedStep
/-! # Opening images and whole operation sequences -/
namespace Verif.Chunked
open Verif Verif.Spec

/-- Opening a stored image gives its content. -/
theorem open_ok {env : Env} {w : World} {name : String} {c : Bytes} (hw : WOK env w)
    (hd : OnDisk env w name c) (mode : Mode) :
    ∃ s, File.open w name mode = .ok s ∧ s.w = w ∧ s.f.name = name ∧
      R env s ⟨c, if mode.a then c.length else 0, mode.r, mode.w, false⟩ := by
  obtain ⟨m, h1, h2, h3, h4⟩ := hd
  unfold File.open
  rw [h1]
  refine ⟨_, rfl, rfl, rfl, ⟨⟨⟨hw, by simp [Dict.keys], h3, by intro id ch h; simp at h⟩, h2, ?_, ?_⟩,
    ?_, rfl, rfl, rfl⟩⟩
  · dsimp only; split <;> omega
  · intro p hp
    obtain ⟨h, d, e1, e2, e3, e4⟩ := h4 p hp
    simp only [view, Dict.get?_nil, e1, stored, e2]
    exact e4
  · dsimp only; rw [h2]

/-- Opening a new image for writing gives an empty file. -/
theorem open_new {env : Env} {w : World} {name : String} (hw : WOK env w)
    (hd : w.metas.get? name = none) (mode : Mode) (hm : mode.w = true) :
    ∃ s, File.open w name mode = .ok s ∧ s.w = w ∧ s.f.name = name ∧
      R env s ⟨[], 0, mode.r, mode.w, false⟩ := by
  unfold File.open
  rw [hd]
  simp only [hm, Bool.true_eq_false, if_false]
  exact ⟨_, rfl, rfl, rfl, ⟨⟨⟨hw, by simp [Dict.keys], by intro h hh; simp [Dict.values] at hh,
    by intro id ch h; simp at h⟩, rfl, by simp, by intro p hp; simp at hp⟩, rfl, rfl, hm, rfl⟩⟩

theorem run_ok {env : Env} {L : List Bytes} (hL : CollFree env.H L) (ops : List Op) :
    ∀ {s : S} {fl : Flat}, R env s fl → (s.run env ops).w.log ⊆ L →
      R env (s.run env ops) (fl.run ops) ∧ s.trace env ops = fl.trace ops ∧
        ExtN s.f.name s.w (s.run env ops).w ∧ (s.run env ops).f.name = s.f.name := by
  induction ops with
  | nil => intro s fl h _; exact ⟨h, rfl, ExtN.refl _ _, rfl⟩
  | cons op ops ih =>
    intro s fl h hlog
    have hlog' : (s.step env op).1.w.log ⊆ L := fun x hx =>
      hlog (S.run_log env (s.step env op).1 ops hx)
    obtain ⟨h1, h2, h3, h4⟩ := step_ok hL h op hlog'
    obtain ⟨e1, e2, e3, e4⟩ := ih h1 hlog
    refine ⟨e1, ?_, ?_, ?_⟩
    · simp only [S.trace, Flat.trace, h2, e2]
      rw [h1.pos, h1.rep.size]
    · rw [h4] at e3; exact h3.trans e3
    · exact e4.trans h4

theorem run_append (env : Env) (s : S) (a b : List Op) :
    s.run env (a ++ b) = (s.run env a).run env b := by simp [S.run, List.foldl_append]

theorem Flat.run_append (s : Flat) (a b : List Op) : s.run (a ++ b) = (s.run a).run b := by
  simp [Flat.run, List.foldl_append]

/-- Closing a writable image leaves its content on disk. -/
theorem close_ok {env : Env} {L : List Bytes} (hL : CollFree env.H L) {s : S} {fl : Flat}
    (h : R env s fl) (hw : fl.writable = true) (hc : fl.closed = false)
    (hlog : (s.close env).2.w.log ⊆ L) :
    ∃ s', s.close env = (.ok (), s') ∧ WOK env s'.w ∧ OnDisk env s'.w s.f.name fl.content ∧
      ExtN s.f.name s.w s'.w := by
  have hm : s.f.mode.w = true := by rw [h.w]; exact hw
  have hcl : s.f.closed = false := by rw [h.closed]; exact hc
  unfold S.close at hlog ⊢
  rw [if_neg (by simp [hcl]), if_pos hm] at hlog ⊢
  have hlf : (s.flush env).2.w.log ⊆ L := by
    intro x hx; apply hlog
    revert hx
    cases s.flush env with
    | mk a b => cases a <;> exact id
  obtain ⟨s1, e1, e2, e3, e4, e5, e6, _⟩ := flush_ok hL h.rep hm hcl hlf
  rw [e1]
  exact ⟨_, rfl, e2.base.wok, e6, e3⟩

end Verif.Chunked
