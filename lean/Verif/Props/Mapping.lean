import Verif.Spec.Mapping
import Verif.Model.Backup
/-!
# C88: the block device of a snapshot
-/
namespace Verif.Mapping
open Verif Verif.Spec

theorem contains_iff (needle : List Char) : ∀ l, contains needle l = true ↔ ∃ a b, l = a ++ needle ++ b
  | [] => by
    simp only [contains, List.isEmpty_iff]
    constructor
    · intro h; exact ⟨[], [], by simp [h]⟩
    · rintro ⟨a, b, h⟩
      have h := congrArg List.length h
      simp only [List.length_nil, List.length_append] at h
      exact List.length_eq_zero_iff.mp (by omega)
  | c :: t => by
    simp only [contains, Bool.or_eq_true, contains_iff needle t, List.isPrefixOf_iff_prefix]
    constructor
    · rintro (⟨b, h⟩ | ⟨a, b, h⟩)
      · exact ⟨[], b, by simp [h]⟩
      · exact ⟨c :: a, b, by simp [h]⟩
    · rintro ⟨a, b, h⟩
      cases a with
      | nil => exact Or.inl ⟨b, by simpa using h.symm⟩
      | cons x a =>
        simp only [List.cons_append, List.cons.injEq] at h
        exact Or.inr ⟨a, b, h.2⟩

theorem findEntry_ok {image : String} : ∀ {es : List Entry} {e}, findEntry image es = .ok e → e ∈ es ∧ entrySpec e = .ok image
  | [], _, h => by simp [findEntry] at h
  | x :: rest, e, h => by
    simp only [findEntry] at h
    split at h
    · cases h
    · next s hs =>
      split at h
      · next he => cases h; subst he; exact ⟨List.mem_cons_self, hs⟩
      · obtain ⟨h1, h2⟩ := findEntry_ok h
        exact ⟨List.mem_cons_of_mem _ h1, h2⟩

theorem parse_since {v image : String} {s : Shown} (h : contains "nautilus".toList v.toList = true) : parse v image s = parseSince image s := by
  simp only [parse, h, if_true]

theorem parse_pre {v image : String} {s : Shown} (h : contains "nautilus".toList v.toList = false) : parse v image s = parsePre image s := by
  simp only [parse, h, Bool.false_eq_true, if_false, ite_self]

theorem parse_ok {v image : String} {s : Shown} {e : Entry} (h : parse v image s = .ok e) :
    e ∈ Listed s ∧ entrySpec e = .ok image := by
  have pre : ∀ {s : Shown}, parsePre image s = .ok e → e ∈ Listed s ∧ entrySpec e = .ok image := by
    intro s h
    cases s with
    | object es => exact findEntry_ok h
    | list es => simp [parsePre] at h
  simp only [parse] at h
  split at h
  · cases s with
    | list es => exact findEntry_ok h
    | object es => cases es <;> simp [parseSince] at h
  · split at h <;> exact pre h

theorem mapImage_cases (h : Host) (t : Tool) (pool name snap : String) :
    (∃ e, t.version = .error e ∧ h.mapImage t pool name snap = (.error e, h)) ∨
      ∃ r, h.mapImage t pool name snap = (r, ⟨WithNew h t pool name snap, h.log ++ [.map pool name snap]⟩) ∧
        ∀ d, r = .ok d → t.mapFails = none ∧ ∃ shown e, t.shown (WithNew h t pool name snap) = .ok shown ∧ e ∈ Listed shown ∧
          entrySpec e = .ok (spec pool name snap) ∧ e.get? "device" = some d := by
  have ha : (if t.mapped then h.devices ++ [⟨pool, name, snap, t.device⟩] else h.devices) = WithNew h t pool name snap := rfl
  simp only [Host.mapImage, Host.map, ha]
  cases hv : t.version with
  | error e => exact Or.inl ⟨e, rfl, rfl⟩
  | ok v =>
    right
    cases hm : t.mapFails with
    | some e => exact ⟨.error e, rfl, fun d hd => nomatch hd⟩
    | none =>
      simp only
      cases hs : t.shown (WithNew h t pool name snap) with
      | error e => exact ⟨.error e, rfl, fun d hd => nomatch hd⟩
      | ok shown =>
        simp only
        cases hp : parse v (spec pool name snap) shown with
        | error e => exact ⟨.error e, rfl, fun d hd => nomatch hd⟩
        | ok entry =>
          refine ⟨deviceOf entry, rfl, fun d hd => ⟨trivial, shown, entry, rfl, (parse_ok hp).1, (parse_ok hp).2, ?_⟩⟩
          simp only [deviceOf] at hd
          split at hd <;> cases hd
          assumption

/-- The reader either fails before it hands out a device, and then gives no `rbd unmap`, or hands out the device of an entry
listed for exactly this snapshot and unmaps that device, whatever the body does. -/
theorem C88_given_back {σ α : Type} (h : Host) (t : Tool) (pool name snap : String)
    (body : String → σ → Except PyErr α × σ) (st : σ) :
    ((∃ e, (h.reader t pool name snap body st).1 = .error e) ∧ (h.reader t pool name snap body st).2.1 = st ∧
        ((h.reader t pool name snap body st).2.2 = h ∨
          (h.reader t pool name snap body st).2.2 = ⟨WithNew h t pool name snap, h.log ++ [.map pool name snap]⟩)) ∨
      ∃ d shown e, t.shown (WithNew h t pool name snap) = .ok shown ∧ e ∈ Listed shown ∧
        entrySpec e = .ok (spec pool name snap) ∧ e.get? "device" = some d ∧
        (h.reader t pool name snap body st).2.1 = (body d st).2 ∧
        (h.reader t pool name snap body st).2.2.log = h.log ++ [.map pool name snap, .unmap d] ∧
        (t.unmapFails d = none → (h.reader t pool name snap body st).1 = (body d st).1 ∧
          (h.reader t pool name snap body st).2.2.devices = (WithNew h t pool name snap).filter (fun x => x.device ≠ d)) ∧
        (∀ e, t.unmapFails d = some e → (h.reader t pool name snap body st).1 = .error e ∧
          (h.reader t pool name snap body st).2.2.devices = WithNew h t pool name snap) := by
  simp only [Host.reader]
  rcases mapImage_cases h t pool name snap with ⟨e, _, he⟩ | ⟨r, hr, hd⟩
  · rw [he]; exact Or.inl ⟨⟨e, rfl⟩, rfl, Or.inl rfl⟩
  · rw [hr]
    cases r with
    | error e => exact Or.inl ⟨⟨e, rfl⟩, rfl, Or.inr rfl⟩
    | ok d =>
      obtain ⟨_, shown, e, h1, h2, h3, h4⟩ := hd d rfl
      simp only
      cases ho : t.openFails d with
      | some e => exact Or.inl ⟨⟨e, rfl⟩, rfl, Or.inr rfl⟩
      | none =>
        right
        refine ⟨d, shown, e, h1, h2, h3, h4, ?_⟩
        simp only [Host.unmap]
        cases hu : t.unmapFails d with
        | some e => simp
        | none => simp

theorem split_unique {c : Char} : ∀ {a a' b b' : List Char}, c ∉ a → c ∉ a' → a ++ c :: b = a' ++ c :: b' → a = a' ∧ b = b'
  | [], [], _, _, _, _, h => by simpa using h
  | [], x :: _, _, _, _, h2, h => by
    simp only [List.nil_append, List.cons_append, List.cons.injEq] at h
    exact absurd (h.1 ▸ List.mem_cons_self) h2
  | x :: _, [], _, _, h1, _, h => by
    simp only [List.nil_append, List.cons_append, List.cons.injEq] at h
    exact absurd (h.1 ▸ List.mem_cons_self) h1
  | x :: a, y :: a', b, b', h1, h2, h => by
    simp only [List.cons_append, List.cons.injEq] at h
    obtain ⟨h3, h4⟩ := split_unique (fun m => h1 (List.mem_cons_of_mem _ m)) (fun m => h2 (List.mem_cons_of_mem _ m)) h.2
    exact ⟨by rw [h.1, h3], h4⟩

theorem spec_inj {p n s p' n' s' : String} (h1 : CephNames p n) (h2 : CephNames p' n') (h : spec p n s = spec p' n' s') :
    p = p' ∧ n = n' ∧ s = s' := by
  have h := congrArg String.toList h
  simp only [spec, String.toList_append, List.append_assoc] at h
  change p.toList ++ '/' :: (n.toList ++ '@' :: s.toList) = p'.toList ++ '/' :: (n'.toList ++ '@' :: s'.toList) at h
  obtain ⟨ha, h⟩ := split_unique h1.1 h2.1 h
  obtain ⟨hb, hc⟩ := split_unique h1.2 h2.2 h
  exact ⟨String.toList_inj.mp ha, String.toList_inj.mp hb, String.toList_inj.mp hc⟩

theorem describes_spec {e : Entry} {d : Dev} (h : Describes e d) : entrySpec e = .ok (spec d.pool d.name d.snap) := by
  obtain ⟨h1, h2, h3, _⟩ := h
  simp [entrySpec, h1, h2, h3]

theorem mem_withNew {h : Host} {t : Tool} {pool name snap : String} {x : Dev} (hx : x ∈ WithNew h t pool name snap) :
    x ∈ h.devices ∨ x = ⟨pool, name, snap, t.device⟩ := by
  simp only [WithNew] at hx
  split at hx
  · simpa using hx
  · exact Or.inl hx

/-- With an honest mapping list the body gets a device that shows exactly the requested snapshot: same pool, same image, same
snapshot.  (`body` here only notes its argument, so the notes are the devices handed out.) -/
theorem C88_right_device (h : Host) (t : Tool) (pool name snap : String) (honest : Honest t)
    (names : CephNames pool name) (others : ∀ x ∈ h.devices, CephNames x.pool x.name)
    {α : Type} (result : String → Except PyErr α) {d : String}
    (hd : d ∈ (h.reader t pool name snap (fun d l => (result d, l ++ [d])) ([] : List String)).2.1) :
    ⟨pool, name, snap, d⟩ ∈ WithNew h t pool name snap := by
  rcases C88_given_back h t pool name snap (fun d l => (result d, l ++ [d])) ([] : List String) with ⟨_, h1, _⟩ | ⟨d', shown, e, h1, h2, h3, h4, h5, _⟩
  · rw [h1] at hd; cases hd
  · rw [h5] at hd
    simp only [List.nil_append, List.mem_singleton] at hd
    subst hd
    obtain ⟨x, hx, hdesc⟩ := (honest _ _ h1).1 e h2
    have hs := describes_spec hdesc
    rw [h3] at hs
    have hs : spec pool name snap = spec x.pool x.name x.snap := by injection hs
    have hn : CephNames x.pool x.name := by
      rcases mem_withNew hx with hx | rfl
      · exact others x hx
      · exact names
    obtain ⟨r1, r2, r3⟩ := spec_inj names hn hs
    have r4 := hdesc.2.2.2
    rw [h4] at r4
    have r4 : d = x.device := by injection r4
    have : (⟨pool, name, snap, d⟩ : Dev) = x := by rw [r1, r2, r3, r4]
    rw [this]; exact hx

/-- Once the reader is done, the devices of the host are the ones from before, provided the device got unmapped; the only
exception is a failure before the body ran, which leaves the new device behind. -/
theorem C88_no_trace {σ α : Type} (h : Host) (t : Tool) (pool name snap : String) (honest : Honest t)
    (names : CephNames pool name) (others : ∀ x ∈ h.devices, CephNames x.pool x.name)
    (unused : ∀ x ∈ h.devices, ¬(x.pool = pool ∧ x.name = name ∧ x.snap = snap))
    (fresh : ∀ x ∈ h.devices, x.device ≠ t.device) (unmaps : t.unmapFails t.device = none)
    (body : String → σ → Except PyErr α × σ) (st : σ) :
    (h.reader t pool name snap body st).2.2.devices = h.devices ∨
      (h.reader t pool name snap body st).2.2.devices = h.devices ++ [⟨pool, name, snap, t.device⟩] ∧
        (∃ e, (h.reader t pool name snap body st).1 = .error e) ∧ (h.reader t pool name snap body st).2.1 = st := by
  rcases C88_given_back h t pool name snap body st with ⟨he, h1, h2 | h2⟩ | ⟨d, shown, e, h1, h2, h3, h4, h5, h6, h7, _⟩
  · rw [h2]; exact Or.inl rfl
  · rw [h2]
    simp only [WithNew]
    split
    · exact Or.inr ⟨rfl, he, h1⟩
    · exact Or.inl rfl
  · left
    obtain ⟨x, hx, hdesc⟩ := (honest _ _ h1).1 e h2
    have hs := describes_spec hdesc
    rw [h3] at hs
    have hs : spec pool name snap = spec x.pool x.name x.snap := by injection hs
    have hn : CephNames x.pool x.name := by
      rcases mem_withNew hx with hx | rfl
      · exact others x hx
      · exact names
    obtain ⟨r1, r2, r3⟩ := spec_inj names hn hs
    have hnew : x = ⟨pool, name, snap, t.device⟩ := by
      rcases mem_withNew hx with hx | hx
      · exact absurd ⟨r1.symm, r2.symm, r3.symm⟩ (unused x hx)
      · exact hx
    have r4 := hdesc.2.2.2
    rw [h4, hnew] at r4
    have r4 : d = t.device := by injection r4
    subst r4
    have hm : t.mapped = true := by
      by_cases hm : t.mapped = true
      · exact hm
      · simp only [WithNew, hm] at hx
        exact absurd (by rw [hnew]) (fresh x (by simpa using hx))
    rw [(h7 unmaps).2]
    simp only [WithNew, hm, if_true, List.filter_append]
    rw [List.filter_eq_self.mpr (fun x hx => by simpa using fresh x hx)]
    simp

/-- Everything the body did counts only if the device could be unmapped: a success of the reader is a success of the body, and
the device is gone. -/
theorem C88_success {σ α : Type} (h : Host) (t : Tool) (pool name snap : String)
    (body : String → σ → Except PyErr α × σ) (st : σ) {a : α} (ok : (h.reader t pool name snap body st).1 = .ok a) :
    ∃ d, (body d st).1 = .ok a ∧ (h.reader t pool name snap body st).2.1 = (body d st).2 ∧
      ∀ x ∈ (h.reader t pool name snap body st).2.2.devices, x.device ≠ d := by
  rcases C88_given_back h t pool name snap body st with ⟨⟨e, he⟩, _⟩ | ⟨d, shown, e, h1, h2, h3, h4, h5, h6, h7, h8⟩
  · rw [ok] at he; cases he
  · cases hu : t.unmapFails d with
    | some e => rw [(h8 e hu).1] at ok; cases ok
    | none =>
      refine ⟨d, (h7 hu).1 ▸ ok, h5, fun x hx => ?_⟩
      rw [(h7 hu).2] at hx
      simpa using (List.mem_filter.mp hx).2

/-- On a release newer than Nautilus, whose mapping list is a JSON list although the version text does not contain `nautilus`,
the reader fails every time, and every time it leaves the new device mapped. -/
theorem C88_newer_release {σ α : Type} (h : Host) (t : Tool) (pool name snap : String) {v : String} {es : List Entry}
    (version : t.version = .ok v) (newer : ¬∃ a b, v.toList = a ++ "nautilus".toList ++ b)
    (maps : t.mapped = true) (works : t.mapFails = none) (shown : t.shown (WithNew h t pool name snap) = .ok (.list es))
    (body : String → σ → Except PyErr α × σ) (st : σ) :
    h.reader t pool name snap body st =
      (.error .unexpected, st, ⟨h.devices ++ [⟨pool, name, snap, t.device⟩], h.log ++ [.map pool name snap]⟩) := by
  have hc : contains "nautilus".toList v.toList = false := by
    cases hc : contains "nautilus".toList v.toList with
    | false => rfl
    | true => exact absurd ((contains_iff _ _).mp hc) newer
  have hp : parse v (spec pool name snap) (.list es) = .error .unexpected := by
    rw [parse_pre hc]; rfl
  simp only [WithNew, maps, if_true] at shown
  simp [Host.reader, Host.mapImage, Host.map, version, works, maps, shown, hp]

theorem findEntry_some {image : String} : ∀ {es : List Entry}, (∀ e ∈ es, ∃ d, Describes e d) →
    (∃ e ∈ es, entrySpec e = .ok image) → ∃ e, findEntry image es = .ok e
  | [], _, h => by obtain ⟨e, he, _⟩ := h; cases he
  | x :: rest, hall, h => by
    obtain ⟨d, hd⟩ := hall x List.mem_cons_self
    simp only [findEntry, describes_spec hd]
    split
    · exact ⟨x, rfl⟩
    · next hne =>
      refine findEntry_some (fun e he => hall e (List.mem_cons_of_mem _ he)) ?_
      obtain ⟨e, he, hs⟩ := h
      rcases List.mem_cons.mp he with rfl | he
      · rw [describes_spec hd] at hs; injection hs with hs; exact absurd hs hne
      · exact ⟨e, he, hs⟩

theorem parse_some {t : Tool} {v image : String} {devs : List Dev} {s : Shown} (honest : Honest t) (known : KnownRelease t)
    (hv : t.version = .ok v) (hs : t.shown devs = .ok s) (hd : ∃ d ∈ devs, spec d.pool d.name d.snap = image) :
    ∃ e d, parse v image s = .ok e ∧ e.get? "device" = some d := by
  obtain ⟨x, hx, hxs⟩ := hd
  have hl := honest _ _ hs
  obtain ⟨e, he, hed⟩ := hl.2 x hx
  have hfind : ∃ e, findEntry image (Listed s) = .ok e :=
    findEntry_some (fun e he => (hl.1 e he).imp fun _ h => h.2) ⟨e, he, by rw [describes_spec hed, hxs]⟩
  have hk := known _ _ _ hs hv
  have hparse : parse v image s = findEntry image (Listed s) := by
    cases hc : contains "nautilus".toList v.toList with
    | true =>
      obtain ⟨es, rfl⟩ := hk.mp ((contains_iff _ _).mp hc)
      rw [parse_since hc]; rfl
    | false =>
      have hno : ¬∃ es, s = .list es := fun h => by
        have := (contains_iff _ _).mpr (hk.mpr h)
        rw [hc] at this; cases this
      cases s with
      | list es => exact absurd ⟨es, rfl⟩ hno
      | object es => rw [parse_pre hc]; rfl
  obtain ⟨e', he'⟩ := hfind
  obtain ⟨y, _, hy⟩ := hl.1 e' (findEntry_ok he').1
  exact ⟨e', y.device, by rw [hparse, he'], hy.2.2.2⟩

/-- With a release whose layout backy knows and honest output, the body runs whenever the commands work: the result is the one
of the body. -/
theorem C88_works {σ α : Type} (h : Host) (t : Tool) (pool name snap : String) (honest : Honest t) (known : KnownRelease t)
    {v : String} (version : t.version = .ok v) (maps : t.mapped = true) (works : t.mapFails = none)
    (shows_ : ∃ s, t.shown (WithNew h t pool name snap) = .ok s) (opens : ∀ d, t.openFails d = none)
    (unmaps : ∀ d, t.unmapFails d = none) (body : String → σ → Except PyErr α × σ) (st : σ) :
    ∃ d, ((h.reader t pool name snap body st).1, (h.reader t pool name snap body st).2.1) = body d st := by
  obtain ⟨s, hs⟩ := shows_
  obtain ⟨e, d, hp, hd⟩ := parse_some honest known version hs
    (⟨⟨pool, name, snap, t.device⟩, by simp [WithNew, maps], rfl⟩ : ∃ d ∈ WithNew h t pool name snap, spec d.pool d.name d.snap = spec pool name snap)
  refine ⟨d, ?_⟩
  simp only [WithNew, maps, if_true] at hs
  simp [Host.reader, Host.mapImage, Host.map, Host.unmap, version, works, maps, hs, hp, deviceOf, hd, opens, unmaps]

/-- The comparison of `CephRBD.verify` (`rbd/__init__.py:541-547`) as the body of the reader; the device shows the snapshot. -/
def compareBody (env : Env) (o : Backup.Rbd) (snap : Bytes) : String → Chunked.S → Except PyErr Bool × Chunked.S := fun _ s =>
  match Files.filesAreRoughlyEqual env env.cs o.expired o.sample snap s with
  | (.error e, s) => (.error e, s)
  | (.ok (res, _), s) => (.ok res, s)

/-- The exceptions of the `rbd` program and of the parsers: none of them is a `BackendException`. -/
def Foreign (t : Tool) : Prop :=
  t.version ≠ .error .backend ∧ t.mapFails ≠ some .backend ∧ (∀ l, t.shown l ≠ .error .backend) ∧
    (∀ d, t.openFails d ≠ some .backend) ∧ (∀ d, t.unmapFails d ≠ some .backend)

theorem findEntry_foreign {image : String} : ∀ es : List Entry, findEntry image es ≠ .error .backend
  | [] => by simp [findEntry]
  | x :: rest => by
    simp only [findEntry]
    split
    · next e he =>
      simp only [entrySpec] at he
      split at he <;> simp_all
      intro h; subst h; cases he
    · split
      · simp
      · exact findEntry_foreign rest

theorem parse_foreign (v image : String) (s : Shown) : parse v image s ≠ .error .backend := by
  cases hc : contains "nautilus".toList v.toList with
  | true =>
    rw [parse_since hc]
    cases s with
    | list es => exact findEntry_foreign es
    | object es => cases es <;> simp [parseSince]
  | false =>
    rw [parse_pre hc]
    cases s with
    | object es => exact findEntry_foreign _
    | list es => simp [parsePre]

theorem mapImage_foreign {h : Host} {t : Tool} (pool name snap : String) (ht : Foreign t) :
    (h.mapImage t pool name snap).1 ≠ .error .backend := by
  obtain ⟨f1, f2, f3, _⟩ := ht
  simp only [Host.mapImage, Host.map]
  split
  · next hv => intro he; simp only [Except.error.injEq] at he; subst he; exact f1 hv
  · split
    · next hm =>
      intro he; simp only [Except.error.injEq] at he; subst he
      split at hm <;> simp_all
    · split
      · next hs => intro he; simp only [Except.error.injEq] at he; subst he; exact f3 _ hs
      · split
        · next hp => intro he; simp only [Except.error.injEq] at he; subst he; exact parse_foreign _ _ _ hp
        · simp only [deviceOf]; split <;> simp

/-- What a backup sees of the mapping commands is one of the cases of `Backup.verifyPhase`: either the device is not handed
out, or `rbd unmap` fails, or neither.  Same success, same repository, `BackendException` in the same cases. -/
theorem C88_in_backup (env : Env) (o : Backup.Rbd) (uuid : String) (snap : Bytes) (w : Chunked.World) (h : Host) (t : Tool)
    (pool name : String) (ht : Foreign t) {f : Chunked.S} (hf : Chunked.File.open w uuid Rbd.rb = .ok f) :
    ∃ m u : Bool, ∀ r, r = h.reader t pool name (Backup.snapName uuid) (compareBody env o snap) f →
      (Backup.verifyPhase env { o with mapFails := m, unmapFails := u } uuid snap w).2 = r.2.1.w ∧
      (∀ b, (Backup.verifyPhase env { o with mapFails := m, unmapFails := u } uuid snap w).1 = .ok b ↔ r.1 = .ok b) ∧
      ((Backup.verifyPhase env { o with mapFails := m, unmapFails := u } uuid snap w).1 = .error .backend ↔
        r.1 = .error .backend) := by
  have hforeign := mapImage_foreign (h := h) pool name (Backup.snapName uuid) ht
  obtain ⟨_, _, _, f4, f5⟩ := ht
  simp only [Host.reader, Backup.verifyPhase, hf]
  generalize h.mapImage t pool name (Backup.snapName uuid) = g at *
  obtain ⟨g, h'⟩ := g
  cases g with
  | error e =>
    refine ⟨true, false, fun r hr => ?_⟩
    subst hr
    have : e ≠ .backend := fun he => hforeign (by rw [he])
    simp [this]
  | ok d =>
    cases ho : t.openFails d with
    | some e =>
      refine ⟨true, false, fun r hr => ?_⟩
      subst hr
      have : e ≠ .backend := fun he => f4 d (by rw [ho, he])
      simp [this, ho]
    | none =>
      cases hu : t.unmapFails d with
      | some e =>
        refine ⟨false, true, fun r hr => ?_⟩
        have : e ≠ .backend := fun he => f5 d (by rw [hu, he])
        subst hr
        simp only [Host.unmap, hu, compareBody]
        generalize Files.filesAreRoughlyEqual env env.cs o.expired o.sample snap f = c
        obtain ⟨c, s⟩ := c
        cases c <;> simp [this, ho]
      | none =>
        refine ⟨false, false, fun r hr => ?_⟩
        subst hr
        simp only [Host.unmap, hu, compareBody]
        generalize Files.filesAreRoughlyEqual env env.cs o.expired o.sample snap f = c
        obtain ⟨c, s⟩ := c
        cases c <;> simp [ho]

/-! A concrete host: one foreign device, Nautilus output, an honest list. -/

/-- The entry `rbd showmapped` prints for a device. -/
def exEntry (d : Dev) : Entry := [("id", "0"), ("pool", d.pool), ("name", d.name), ("snap", d.snap), ("device", d.device)]

/-- A working `rbd` with the given version text. -/
def exTool (version : String) : Tool where
  version := .ok version
  mapped := true
  mapFails := none
  device := "/dev/rbd1"
  shown := fun l => .ok (.list (l.map exEntry))
  openFails := fun _ => none
  unmapFails := fun _ => none

def exHost : Host := ⟨[⟨"rbd", "other", "-", "/dev/rbd0"⟩], []⟩

theorem exTool_honest (v : String) : Honest (exTool v) := by
  intro devs shown h
  simp only [exTool, Except.ok.injEq] at h
  subst h
  constructor
  · intro e he
    obtain ⟨d, hd, rfl⟩ := List.mem_map.mp he
    exact ⟨d, hd, rfl, rfl, rfl, rfl⟩
  · intro d hd
    exact ⟨exEntry d, List.mem_map.mpr ⟨d, hd, rfl⟩, rfl, rfl, rfl, rfl⟩

theorem exTool_known : KnownRelease (exTool "ceph version 14.2 nautilus (stable)") := by
  intro devs shown v h hv
  simp only [exTool, Except.ok.injEq] at h hv
  subst h hv
  exact ⟨fun _ => ⟨_, rfl⟩, fun _ => (contains_iff _ _).mp (by decide +kernel)⟩

/-- The body runs on the new device, which is gone afterwards; a Quincy release leaves it behind. -/
example :
    (exHost.reader (exTool "ceph version 14.2 nautilus (stable)") "rbd" "vm" "backy-1"
        (fun d l => ((.ok () : Except PyErr Unit), l ++ [d])) []) =
      (.ok (), ["/dev/rbd1"], ⟨exHost.devices, [.map "rbd" "vm" "backy-1", .unmap "/dev/rbd1"]⟩) ∧
    (exHost.reader (exTool "ceph version 17.2 quincy (stable)") "rbd" "vm" "backy-1"
        (fun d l => ((.ok () : Except PyErr Unit), l ++ [d])) []).2.2.devices =
      exHost.devices ++ [⟨"rbd", "vm", "backy-1", "/dev/rbd1"⟩] := by decide +kernel

/-- The hypotheses of the theorems hold of this host. -/
example : CephNames "rbd" "vm" ∧ (∀ x ∈ exHost.devices, CephNames x.pool x.name) ∧
    (∀ x ∈ exHost.devices, ¬(x.pool = "rbd" ∧ x.name = "vm" ∧ x.snap = "backy-1")) ∧
    (∀ x ∈ exHost.devices, x.device ≠ (exTool "").device) ∧ Foreign (exTool "") := by
  refine ⟨?_, ?_, ?_, ?_, ?_⟩
  · unfold CephNames; decide
  · unfold CephNames exHost; decide
  · decide
  · decide
  · exact ⟨by simp [exTool], by simp [exTool], by simp [exTool], by simp [exTool], by simp [exTool]⟩

/-- Quincy is a release newer than Nautilus in the sense of `C88_newer_release`. -/
example : ¬∃ a b, "ceph version 17.2 quincy (stable)".toList = a ++ "nautilus".toList ++ b := by
  rw [← contains_iff]; decide +kernel

theorem exNames : CephNames "rbd" "vm" ∧ (∀ x ∈ exHost.devices, CephNames x.pool x.name) := by
  refine ⟨?_, ?_⟩
  · unfold CephNames; decide
  · unfold CephNames exHost; decide

example := C88_newer_release exHost (exTool "ceph version 17.2 quincy (stable)") "rbd" "vm" "backy-1" (v := "ceph version 17.2 quincy (stable)") rfl
  (by rw [← contains_iff]; decide +kernel) rfl rfl rfl (fun d l => ((.ok () : Except PyErr Unit), l ++ [d])) []
example := C88_success exHost (exTool "ceph version 14.2 nautilus (stable)") "rbd" "vm" "backy-1"
  (fun d l => ((.ok () : Except PyErr Unit), l ++ [d])) [] (a := ()) (by decide +kernel)

theorem exTool_foreign : Foreign (exTool "") := ⟨by simp [exTool], by simp [exTool], by simp [exTool], by simp [exTool], by simp [exTool]⟩

example := C88_given_back exHost (exTool "ceph version 14.2 nautilus (stable)") "rbd" "vm" "backy-1"
  (fun d l => ((.ok () : Except PyErr Unit), l ++ [d])) []
example := C88_right_device exHost (exTool "ceph version 14.2 nautilus (stable)") "rbd" "vm" "backy-1" (exTool_honest _) exNames.1 exNames.2
  (fun _ => (.ok () : Except PyErr Unit)) (d := "/dev/rbd1") (by decide +kernel)
example := C88_no_trace exHost (exTool "ceph version 14.2 nautilus (stable)") "rbd" "vm" "backy-1" (exTool_honest _) exNames.1 exNames.2
  (by decide) (by decide) rfl (fun d l => ((.error .runtime : Except PyErr Unit), l ++ [d])) []
example := C88_works exHost (exTool "ceph version 14.2 nautilus (stable)") "rbd" "vm" "backy-1" (exTool_honest _) exTool_known rfl rfl rfl
  ⟨_, rfl⟩ (fun _ => rfl) (fun _ => rfl) (fun d l => ((.ok () : Except PyErr Unit), l ++ [d])) []
example (env : Env) (o : Backup.Rbd) := C88_in_backup env o "a" [1, 1, 1, 1] ⟨[], [("a", some ⟨[], 4⟩)], [], false, 0, []⟩
  exHost (exTool "") "rbd" "vm" exTool_foreign (f := _) rfl

end Verif.Mapping
