import Verif.Spec.Config
import Verif.Props.Commands
import Verif.Props.Schedule
import Verif.Props.Api
/-!
# C104, C105: the configuration file
-/
namespace Verif.Config
open Verif Verif.Repo

theorem bind_ok {ε α β : Type} {x : Except ε α} {f : α → Except ε β} {b : β} :
    (x >>= f) = .ok b ↔ ∃ a, x = .ok a ∧ f a = .ok b := by
  cases x with
  | error e =>
    constructor
    · intro h; cases h
    · rintro ⟨a, h, _⟩; cases h
  | ok a =>
    constructor
    · intro h; exact ⟨a, rfl, h⟩
    · rintro ⟨a', h, h'⟩; cases h; exact h'

theorem pure_ok {ε α : Type} {a b : α} : (pure a : Except ε α) = .ok b ↔ a = b := by
  constructor
  · intro h; cases h; rfl
  · rintro rfl; rfl

theorem getD_ok {y : Yaml} {key : String} {dflt v : Yaml} :
    y.getD key dflt = .ok v ↔ ∃ m, y = .map m ∧ (Dict.get? m key).getD dflt = v := by
  cases y <;> simp [Yaml.getD]

theorem item_ok {y : Yaml} {key : String} {v : Yaml} : y.item key = .ok v ↔ ∃ m, y = .map m ∧ Dict.get? m key = some v := by
  cases y <;> simp [Yaml.item]
  rename_i m
  cases Dict.get? m key <;> simp

theorem items_ok {y : Yaml} {m : List (String × Yaml)} : y.items = .ok m ↔ y = .map m := by
  cases y <;> simp [Yaml.items]

theorem pathOf_ok {y : Yaml} {s : String} : pathOf y = .ok s ↔ y = .str s := by
  cases y <;> simp [pathOf]

theorem addrsOf_ok {y : Yaml} {l : List String} :
    addrsOf y = .ok l ↔ ∃ s, y = .str s ∧ (Commands.splitComma s.toList).map (fun a => String.ofList (strip a)) = l := by
  cases y <;> simp [addrsOf]

theorem truthy_iff {y : Yaml} : truthy y = true ↔ ¬ Nothing y := by
  unfold Nothing
  cases y with
  | null => simp [truthy]
  | bool b => cases b <;> simp [truthy]
  | int n => simp [truthy]
  | float t z => cases z <;> simp [truthy]
  | str s => simp [truthy]
  | date => simp [truthy]
  | seq l => simp [truthy]
  | map m => simp [truthy]

theorem callbackOf_ok {y : Yaml} {o : Option String} :
    callbackOf y = .ok o ↔ (truthy y = false ∧ o = none) ∨ (truthy y = true ∧ ∃ s, y = .str s ∧ o = some s) := by
  unfold callbackOf
  cases h : truthy y
  · simp [eq_comm]
  · simp only [if_true]
    cases y <;> simp [pathOf, eq_comm]

theorem addrs_ne {y : Yaml} {l : List String} (h : addrsOf y = .ok l) : l ≠ [] := by
  obtain ⟨s, _, rfl⟩ := addrsOf_ok.1 h
  intro h
  have : Commands.splitComma s.toList ≠ [] := by
    cases s.toList with
    | nil => simp [Commands.splitComma]
    | cons c l =>
      unfold Commands.splitComma
      split
      · simp
      · split <;> simp
  exact this (List.map_eq_nil_iff.1 h)

theorem cliDefaultOf_ok {addrs : List String} {port : Int} {y v : Yaml} (hne : addrs ≠ []) :
    cliDefaultOf addrs port y = .ok v ↔ (port = 0 ∧ v = y) ∨ (port ≠ 0 ∧ ∃ a rest m, addrs = a :: rest ∧ y = .map m ∧
      v = if Dict.has m "url" then .map m else .map (Dict.set m "url" (.str (urlOf a port)))) := by
  cases addrs with
  | nil => exact absurd rfl hne
  | cons a rest =>
    unfold cliDefaultOf
    by_cases hp : port = 0
    · simp only [hp, if_true, Except.ok.injEq, true_and, ne_eq, not_true_eq_false, false_and, or_false]
      exact eq_comm
    · simp only [hp, if_false, false_and, false_or, ne_eq, not_false_eq_true, true_and]
      constructor
      · intro h
        cases y <;> simp at h
        exact ⟨a, rest, _, rfl, rfl, h.symm⟩
      · rintro ⟨a', rest', m, h1, rfl, rfl⟩
        cases h1
        rfl

theorem intervalOf_ok {o : Option Yaml} {d : Int} : intervalOf o = .ok d ↔ ∃ s, o = some (.str s) ∧ parseDuration s = .ok d := by
  unfold intervalOf
  cases o with
  | none => simp
  | some v => cases v <;> simp

theorem specOf_ok {y : Yaml} {d : Int} {spec : List (String × Yaml)} :
    specOf y = .ok (d, spec) ↔ y = .map spec ∧ ∃ s, Dict.get? spec "interval" = some (.str s) ∧ parseDuration s = .ok d := by
  rw [← intervalOf_ok]
  unfold specOf
  cases y with
  | map m =>
    simp only [Yaml.map.injEq]
    constructor
    · intro h
      cases hi : intervalOf (Dict.get? m "interval") with
      | error e => rw [hi] at h; cases h
      | ok d' => rw [hi] at h; cases h; exact ⟨rfl, hi⟩
    · rintro ⟨rfl, h⟩
      rw [h]
  | _ => simp

theorem configureTags_ok : ∀ {m : List (String × Yaml)} {l : List (String × Int × List (String × Yaml))}, configureTags m = .ok l →
    l.map Prod.fst = m.map Prod.fst ∧ ∀ tag d spec, (tag, d, spec) ∈ l ↔
      ∃ text, (tag, .map spec) ∈ m ∧ Dict.get? spec "interval" = some (.str text) ∧ parseDuration text = .ok d
  | [], l, h => by cases h; simp
  | (t, y) :: rest, l, h => by
    simp only [configureTags] at h
    cases hs : specOf y with
    | error e => rw [hs] at h; cases h
    | ok x =>
      obtain ⟨d0, spec0⟩ := x
      rw [hs] at h
      dsimp only at h
      cases hr : configureTags rest with
      | error e => rw [hr] at h; cases h
      | ok l' =>
        rw [hr] at h
        cases h
        obtain ⟨h1, h2⟩ := configureTags_ok hr
        obtain ⟨rfl, s0, h3, h4⟩ := specOf_ok.1 hs
        refine ⟨by simp [h1], fun tag d spec => ?_⟩
        simp only [List.mem_cons, Prod.mk.injEq, h2, Yaml.map.injEq]
        constructor
        · rintro (⟨rfl, rfl, rfl⟩ | ⟨text, h5, h6⟩)
          · exact ⟨s0, .inl ⟨rfl, rfl⟩, h3, h4⟩
          · exact ⟨text, .inr h5, h6⟩
        · rintro ⟨text, ⟨rfl, rfl⟩ | h5, h6, h7⟩
          · rw [h3] at h6; cases h6
            rw [h4] at h7; cases h7
            exact .inl ⟨rfl, rfl, rfl⟩
          · exact .inr ⟨text, h5, h6, h7⟩

theorem configureTags_total : ∀ {m : List (String × Yaml)},
    (∃ l, configureTags m = .ok l) ↔ ∀ e ∈ m, ∃ spec s d, e.2 = .map spec ∧ Dict.get? spec "interval" = some (.str s) ∧ parseDuration s = .ok d
  | [] => by simp [configureTags]
  | (t, y) :: rest => by
    rw [List.forall_mem_cons, ← configureTags_total]
    simp only [configureTags]
    constructor
    · rintro ⟨l, h⟩
      cases hs : specOf y with
      | error e => rw [hs] at h; cases h
      | ok x =>
        obtain ⟨d0, spec0⟩ := x
        rw [hs] at h
        dsimp only at h
        cases hr : configureTags rest with
        | error e => rw [hr] at h; cases h
        | ok l' =>
          obtain ⟨h1, s, h2, h3⟩ := specOf_ok.1 hs
          exact ⟨⟨spec0, s, d0, h1, h2, h3⟩, l', rfl⟩
    · rintro ⟨⟨spec, s, d, h1, h2, h3⟩, l, h4⟩
      rw [specOf_ok.2 ⟨h1, s, h2, h3⟩, h4]
      exact ⟨_, rfl⟩

theorem configure_ok {y : Yaml} {s : SchedObj} (h : configure y = .ok s) : Defines y s := by
  unfold configure at h
  cases y with
  | map m =>
    dsimp only at h
    cases ht : configureTags m with
    | error e => rw [ht] at h; cases h
    | ok l =>
      rw [ht] at h
      cases h
      obtain ⟨h1, h2⟩ := configureTags_ok ht
      exact ⟨rfl, h1, h2⟩
  | _ => cases h

theorem configure_total {y : Yaml} : (∃ s, configure y = .ok s) ↔ ValidSchedule y := by
  unfold configure ValidSchedule
  cases y with
  | map m =>
    simp only [Yaml.map.injEq, exists_eq_left', ← configureTags_total]
    cases configureTags m <;> simp
  | _ => simp

theorem configureAll_ok : ∀ {d : List (String × Yaml)} {l : List (String × SchedObj)}, configureAll d = .ok l →
    l.map Prod.fst = d.map Prod.fst ∧ (∀ n s, (n, s) ∈ l ↔ ∃ y, (n, y) ∈ d ∧ configure y = .ok s) ∧
    ∀ n, Dict.get? l n = (Dict.get? d n).bind (fun y => (configure y).toOption)
  | [], l, h => by cases h; simp
  | (n, y) :: rest, l, h => by
    simp only [configureAll] at h
    cases hs : configure y with
    | error e => rw [hs] at h; cases h
    | ok s =>
      rw [hs] at h
      dsimp only at h
      cases hr : configureAll rest with
      | error e => rw [hr] at h; cases h
      | ok l' =>
        rw [hr] at h
        cases h
        obtain ⟨h1, h2, h3⟩ := configureAll_ok hr
        refine ⟨by simp [h1], fun n' s' => ?_, fun n' => ?_⟩
        · simp only [List.mem_cons, Prod.mk.injEq, h2]
          constructor
          · rintro (⟨rfl, rfl⟩ | ⟨y', h4, h5⟩)
            · exact ⟨y, .inl ⟨rfl, rfl⟩, hs⟩
            · exact ⟨y', .inr h4, h5⟩
          · rintro ⟨y', ⟨rfl, rfl⟩ | h4, h5⟩
            · rw [hs] at h5; cases h5; exact .inl ⟨rfl, rfl⟩
            · exact .inr ⟨y', h4, h5⟩
        · simp only [Dict.get?]
          split
          · simp [hs, Except.toOption]
          · exact h3 n'

theorem configureAll_total : ∀ {d : List (String × Yaml)}, (∃ l, configureAll d = .ok l) ↔ ∀ e ∈ d, ValidSchedule e.2
  | [] => by simp [configureAll]
  | (n, y) :: rest => by
    rw [List.forall_mem_cons, ← configureAll_total, ← configure_total]
    simp only [configureAll]
    constructor
    · rintro ⟨l, h⟩
      cases hs : configure y with
      | error e => rw [hs] at h; cases h
      | ok s =>
        rw [hs] at h
        dsimp only at h
        cases hr : configureAll rest with
        | error e => rw [hr] at h; cases h
        | ok l' => exact ⟨⟨s, rfl⟩, l', rfl⟩
    · rintro ⟨⟨s, h1⟩, l, h2⟩
      rw [h1, h2]; exact ⟨_, rfl⟩

/-- A section that is looked up with an empty one as default. -/
theorem section_iff {m g : List (String × Yaml)} {name : String} : Section m name g ↔ (Dict.get? m name).getD (.map []) = .map g := by
  unfold Section
  cases h : Dict.get? m name with
  | none => simp [eq_comm]
  | some v => simp

/-- Everything `_read_config` looks up. -/
theorem readConfig_ok {c : Yaml} {st : Settings} : readConfig c = .ok st ↔ ∃ m g a d, c = .map m ∧ Section m "global" g ∧ Section m "api" a ∧
    pyIntOf ((Dict.get? g "worker-limit").getD (.int 1)) = .ok st.workerLimit ∧
    Dict.get? g "base-dir" = some (.str st.baseDir) ∧
    callbackOf ((Dict.get? g "backup-completed-callback").getD .null) = .ok st.callback ∧
    (Dict.get? m "peers").getD (.map []) = st.peers ∧
    addrsOf ((Dict.get? a "addrs").getD (.str "::1, 127.0.0.1")) = .ok st.addrs ∧
    pyIntOf ((Dict.get? a "port").getD (.int 6023)) = .ok st.port ∧
    (Dict.get? a "tokens").getD (.map []) = st.tokens ∧
    cliDefaultOf st.addrs st.port ((Dict.get? a "cli-default").getD (.map [])) = .ok st.cliDefault ∧
    Dict.get? m "schedules" = some (.map d) ∧ configureAll d = .ok st.schedules := by
  unfold readConfig readGlobal readApi
  constructor
  · intro h
    simp only [bind_ok, pure_ok, getD_ok, item_ok, items_ok, pathOf_ok] at h
    obtain ⟨x, ⟨y1, ⟨m, rfl, hg⟩, y2, ⟨g, rfl, rfl⟩, y3, h1, y4, ⟨g', e1, rfl⟩, y5, h2, y6, ⟨g'', e2, rfl⟩, y7, h3, rfl⟩,
      z1, ⟨m', e3, rfl⟩, z2, ⟨w1, ⟨m'', e4, ha⟩, w2, ⟨a, rfl, rfl⟩, w3, h4, w4, ⟨a', e5, rfl⟩, w5, h5, w6, ⟨a'', e6, rfl⟩, w7, ⟨a3, e7, rfl⟩, w8, h6, rfl⟩,
      v1, ⟨m3, e8, h7⟩, d, rfl, v2, h8, rfl⟩ := h
    cases e1; cases e2; cases e3; cases e4; cases e5; cases e6; cases e7; cases e8
    refine ⟨m, g, a, d, rfl, section_iff.2 hg, section_iff.2 ha, h1, ?_, h3, rfl, h4, h5, rfl, h6, h7, h8⟩
    cases hb : Dict.get? g "base-dir" with
    | none => rw [hb] at h2; cases h2
    | some v => rw [hb] at h2; exact congrArg some h2
  · rintro ⟨m, g, a, d, rfl, hg, ha, h1, h2, h3, h4, h5, h6, h7, h8, h9, h10⟩
    rw [section_iff] at hg ha
    simp only [bind_ok, pure_ok, getD_ok, item_ok, items_ok, pathOf_ok]
    exact ⟨_, ⟨_, ⟨m, rfl, hg⟩, _, ⟨g, rfl, rfl⟩, _, h1, _, ⟨g, rfl, rfl⟩, _, (by rw [h2]; rfl), _, ⟨g, rfl, rfl⟩, _, h3, rfl⟩,
      _, ⟨m, rfl, h4⟩, _, ⟨_, ⟨m, rfl, ha⟩, _, ⟨a, rfl, rfl⟩, _, h5, _, ⟨a, rfl, rfl⟩, _, h6, _, ⟨a, rfl, h7⟩, _, ⟨a, rfl, rfl⟩, _, h8, rfl⟩,
      _, ⟨m, rfl, h9⟩, _, rfl, _, h10, rfl⟩

theorem setting_of {m g : List (String × Yaml)} {sect : String} (h : Section m sect g) (key : String) :
    setting (.map m) sect key = Dict.get? g key := by
  unfold setting
  rcases h with h | ⟨h, rfl⟩
  · simp [h]
  · simp [h]

/-- **C104** Which configuration files are accepted. -/
theorem C104_accepted (c : Yaml) : (∃ st, readConfig c = .ok st) ↔ ∃ m g a, c = .map m ∧ Valid m g a := by
  constructor
  · rintro ⟨st, h⟩
    obtain ⟨m, g, a, d, rfl, hg, ha, h1, h2, h3, h4, h5, h6, h7, h8, h9, h10⟩ := readConfig_ok.1 h
    refine ⟨m, g, a, rfl, hg, ha, ?_, ⟨_, h2⟩, ?_, ?_, ?_, ?_, d, h9, configureAll_total.1 ⟨_, h10⟩⟩
    · intro v hv; rw [hv] at h1; exact ⟨_, h1⟩
    · intro v hv ht
      rw [hv] at h3
      rcases callbackOf_ok.1 h3 with ⟨h, _⟩ | ⟨_, s, h, _⟩
      · rw [Option.getD_some, truthy_iff.2 ht] at h; cases h
      · exact ⟨s, h⟩
    · intro v hv
      rw [hv] at h5
      obtain ⟨s, h, _⟩ := addrsOf_ok.1 h5
      exact ⟨s, h⟩
    · intro v hv; rw [hv] at h6; exact ⟨_, h6⟩
    · intro v hv
      rw [hv] at h8
      rcases (cliDefaultOf_ok (addrs_ne h5)).1 h8 with ⟨h, _⟩ | ⟨_, _, _, l, _, h, _⟩
      · right
        rw [h] at h6
        cases hp : Dict.get? a "port" with
        | none => rw [hp] at h6; cases h6
        | some p => rw [hp] at h6; exact ⟨p, rfl, h6⟩
      · exact .inl ⟨l, h⟩
  · rintro ⟨m, g, a, rfl, hv⟩
    obtain ⟨limit, h1⟩ : ∃ n, pyIntOf ((Dict.get? g "worker-limit").getD (.int 1)) = .ok n := by
      cases h : Dict.get? g "worker-limit" with
      | none => exact ⟨1, rfl⟩
      | some v => exact hv.limit v h
    obtain ⟨base, h2⟩ := hv.base
    obtain ⟨cb, h3⟩ : ∃ o, callbackOf ((Dict.get? g "backup-completed-callback").getD .null) = .ok o := by
      cases h : Dict.get? g "backup-completed-callback" with
      | none => exact ⟨none, rfl⟩
      | some v =>
        cases ht : truthy v with
        | false => exact ⟨none, callbackOf_ok.2 (.inl ⟨ht, rfl⟩)⟩
        | true =>
          obtain ⟨s, rfl⟩ := hv.callback v h (truthy_iff.1 ht)
          exact ⟨some s, callbackOf_ok.2 (.inr ⟨ht, s, rfl, rfl⟩)⟩
    obtain ⟨addrs, h5⟩ : ∃ l, addrsOf ((Dict.get? a "addrs").getD (.str "::1, 127.0.0.1")) = .ok l := by
      cases h : Dict.get? a "addrs" with
      | none => exact ⟨_, rfl⟩
      | some v => obtain ⟨s, rfl⟩ := hv.addrs v h; exact ⟨_, rfl⟩
    obtain ⟨port, h6⟩ : ∃ n, pyIntOf ((Dict.get? a "port").getD (.int 6023)) = .ok n := by
      cases h : Dict.get? a "port" with
      | none => exact ⟨_, rfl⟩
      | some v => exact hv.port v h
    obtain ⟨cli, h8⟩ : ∃ v, cliDefaultOf addrs port ((Dict.get? a "cli-default").getD (.map [])) = .ok v := by
      have hne := addrs_ne h5
      by_cases hp : port = 0
      · exact ⟨_, (cliDefaultOf_ok hne).2 (.inl ⟨hp, rfl⟩)⟩
      · obtain ⟨x, rest, rfl⟩ := List.exists_cons_of_ne_nil hne
        obtain ⟨l, hl⟩ : ∃ l, (Dict.get? a "cli-default").getD (.map []) = .map l := by
          cases h : Dict.get? a "cli-default" with
          | none => exact ⟨_, rfl⟩
          | some v =>
            rcases hv.cli v h with ⟨l, rfl⟩ | ⟨p, k1, k2⟩
            · exact ⟨l, rfl⟩
            · rw [k1, Option.getD_some, k2] at h6; cases h6; exact absurd rfl hp
        exact ⟨_, (cliDefaultOf_ok hne).2 (.inr ⟨hp, x, rest, l, rfl, hl, rfl⟩)⟩
    obtain ⟨d, h9, hd⟩ := hv.schedules
    obtain ⟨sc, h10⟩ := configureAll_total.2 hd
    exact ⟨⟨limit, base, cb, _, addrs, port, _, cli, sc⟩, readConfig_ok.2
      ⟨m, g, a, d, rfl, hv.global, hv.api, h1, h2, h3, rfl, h5, h6, rfl, h8, h9, h10⟩⟩

/-- A number written in the file as a number or as decimal digits in quotes. -/
def Number (y : Yaml) (n : Int) : Prop :=
  y = .int n ∨ ∃ l : List Char, l ≠ [] ∧ (∀ c ∈ l, c.isDigit = true) ∧ y = .str (String.ofList l) ∧ n = decimalValue l

theorem number_ok {y : Yaml} {n : Int} (h : Number y n) : pyIntOf y = .ok n := by
  rcases h with rfl | ⟨l, h1, h2, rfl, rfl⟩
  · rfl
  · simp only [pyIntOf, pyIntStr, String.toList_ofList]
    rw [strip_eq_self l (fun c hc => not_ws_of_digit (h2 c hc)), pyInt_digits l h1 h2]

/-- **C104** The settings are the ones in the file; for those that are not there the values are 1 for the limit, no
callback, the addresses ::1 and 127.0.0.1, port 6023, no tokens, no peers.  They depend on the file only, not on what
was set before. -/
theorem C104_settings (c : Yaml) (st : Settings) (h : readConfig c = .ok st) :
    -- limit
    (setting c "global" "worker-limit" = none → st.workerLimit = 1) ∧
    (∀ v n, setting c "global" "worker-limit" = some v → Number v n → st.workerLimit = n) ∧
    -- directory
    setting c "global" "base-dir" = some (.str st.baseDir) ∧
    -- callback
    (setting c "global" "backup-completed-callback" = none → st.callback = none) ∧
    (∀ s, s ≠ "" → setting c "global" "backup-completed-callback" = some (.str s) → st.callback = some s) ∧
    -- addresses
    (setting c "api" "addrs" = none → st.addrs = ["::1", "127.0.0.1"]) ∧
    (∀ parts : List (List Char), parts ≠ [] → (∀ x ∈ parts, ',' ∉ x) →
      setting c "api" "addrs" = some (.str (String.ofList (List.intercalate [','] parts))) →
      st.addrs = parts.map (fun x => String.ofList (strip x))) ∧
    -- port
    (setting c "api" "port" = none → st.port = 6023) ∧
    (∀ v n, setting c "api" "port" = some v → Number v n → st.port = n) ∧
    -- tokens
    st.tokens = (setting c "api" "tokens").getD (.map []) ∧
    -- peers and schedules
    (∃ m d, c = .map m ∧ st.peers = (Dict.get? m "peers").getD (.map []) ∧ Dict.get? m "schedules" = some (.map d) ∧
      st.schedules.map Prod.fst = d.map Prod.fst ∧ ∀ name s, (name, s) ∈ st.schedules → ∃ y, (name, y) ∈ d ∧ Defines y s) := by
  obtain ⟨m, g, a, d, rfl, hg, ha, h1, h2, h3, h4, h5, h6, h7, h8, h9, h10⟩ := readConfig_ok.1 h
  simp only [setting_of hg, setting_of ha]
  refine ⟨fun h => ?_, fun v n h hn => ?_, h2, fun h => ?_, fun s hs h => ?_, fun h => ?_, fun parts hne hc h => ?_, fun h => ?_, fun v n h hn => ?_,
    h7.symm, m, d, rfl, h4.symm, h9, (configureAll_ok h10).1, fun name s hm => ?_⟩
  · rw [h] at h1; exact (Except.ok.inj h1).symm
  · rw [h, Option.getD_some, number_ok hn] at h1; exact (Except.ok.inj h1).symm
  · rw [h] at h3; exact (Except.ok.inj h3).symm
  · rw [h] at h3
    rcases callbackOf_ok.1 h3 with ⟨k, _⟩ | ⟨_, s', k1, k2⟩
    · simp [truthy, hs] at k
    · rw [Option.getD_some] at k1; cases k1; exact k2
  · rw [h] at h5
    have : addrsOf (.str "::1, 127.0.0.1") = .ok ["::1", "127.0.0.1"] := by
      have : (Commands.splitComma "::1, 127.0.0.1".toList).map (fun a => String.ofList (strip a)) = ["::1", "127.0.0.1"] := by decide +kernel
      exact congrArg Except.ok this
    exact (Except.ok.inj (this.symm.trans h5)).symm
  · rw [h] at h5
    obtain ⟨s, k1, k2⟩ := addrsOf_ok.1 h5
    rw [Option.getD_some] at k1
    cases k1
    rw [← k2, String.toList_ofList, Commands.splitComma_intercalate parts hne hc]
  · rw [h] at h6; exact (Except.ok.inj h6).symm
  · rw [h, Option.getD_some, number_ok hn] at h6; exact (Except.ok.inj h6).symm
  · obtain ⟨y, k1, k2⟩ := ((configureAll_ok h10).2.1 name s).1 hm
    exact ⟨y, k1, configure_ok k2⟩

/-! ## Repository configuration -/

theorem configure_again {y : Yaml} {s : SchedObj} (h : configure y = .ok s) : configure s.toDict = .ok s := by
  have := (configure_ok h).1
  unfold SchedObj.toDict
  rw [← this]; exact h

/-- **C104** A command or program that reads the `config` file of a repository works with the path, the source and the schedule that the
daemon had when it wrote the file; and so does a command that asks the daemon for the schedule. -/
theorem C104_repository (c : Yaml) (st : Settings) (hc : readConfig c = .ok st) (name : String) (y : Yaml) (s : Source)
    (h : jobSource st.baseDir st.schedules name y = .ok s) :
    fromConfig s.toConfig = .ok s ∧ configure s.schedule.toDict = .ok s.schedule ∧ s.path = st.baseDir ++ "/" ++ name ∧
      ∃ (e : List (String × Yaml)) (n : String), y = .map e ∧ Dict.get? e "source" = some s.source ∧ Dict.get? e "schedule" = some (.str n) ∧
        Dict.get? st.schedules n = some s.schedule := by
  obtain ⟨m, g, a, d, rfl, _, _, _, _, _, _, _, _, _, _, _, h10⟩ := readConfig_ok.1 hc
  unfold jobSource at h
  obtain ⟨v, h1, h2⟩ := bind_ok.1 h
  obtain ⟨e, rfl, h1'⟩ := item_ok.1 h1
  cases v with
  | str n =>
    dsimp only at h2
    cases hs : Dict.get? st.schedules n with
    | none => rw [hs] at h2; cases h2
    | some o =>
      rw [hs] at h2
      obtain ⟨src, h3, h4⟩ := bind_ok.1 h2
      cases h4
      obtain ⟨e', he, h3⟩ := item_ok.1 h3
      cases he
      obtain ⟨y0, _, hy⟩ := ((configureAll_ok h10).2.1 n o).1 (Dict.mem_of_get? hs)
      have hcf := configure_again hy
      refine ⟨?_, hcf, rfl, e, n, rfl, h3, h1', hs⟩
      unfold fromConfig Source.toConfig
      simp only [bind_ok, item_ok, pathOf_ok, pure_ok]
      exact ⟨_, ⟨_, rfl, by rfl⟩, o, hcf, _, ⟨_, rfl, by rfl⟩, _, rfl, src, ⟨_, rfl, by rfl⟩, rfl⟩
  | _ => cases h2

/-! ## Clients -/

/-- **C104** However often and in which order the peers are contacted, each is contacted with the address and the token configured for it. -/
theorem C104_peers (peers : List (String × Yaml)) (names : List String) (hne : "" ∉ names) :
    gets peers names [] = names.map (fun n => (match Dict.get? peers n with
      | none => .error .key
      | some y => fromConf y : Except PyErr Client)) := by
  have key : ∀ (names : List String) (d : Dict String Client), "" ∉ names →
      (∀ n cl, d.get? n = some cl → ∃ y, Dict.get? peers n = some y ∧ fromConf y = .ok cl) →
      gets peers names d = names.map (fun n => (match Dict.get? peers n with
        | none => .error .key
        | some y => fromConf y : Except PyErr Client)) := by
    intro names
    induction names with
    | nil => intros; rfl
    | cons n rest ih =>
      intro d hne hd
      simp only [List.mem_cons, not_or] at hne
      simp only [gets, List.map_cons, managerGet]
      cases hn : Dict.get? d n with
      | some cl =>
        obtain ⟨y, h1, h2⟩ := hd n cl hn
        dsimp only
        rw [h1]
        dsimp only
        rw [h2, ih d hne.2 hd]
      | none =>
        rw [if_neg (Ne.symm hne.1)]
        cases hp : Dict.get? peers n with
        | none => dsimp only; rw [ih d hne.2 hd]
        | some y =>
          dsimp only
          cases hf : fromConf y with
          | error e => dsimp only; rw [ih d hne.2 hd]
          | ok cl =>
            dsimp only
            rw [ih _ hne.2]
            intro n' cl' h'
            rw [Dict.get?_set] at h'
            split at h'
            · cases h'; subst n'; exact ⟨y, hp, hf⟩
            · exact hd n' cl' h'
  exact key names [] hne (fun n cl h => by cases h)

/-- **C104** The client of a peer has the URL and the token of the configuration, each in its place. -/
theorem C104_peer_token (peers : List (String × Yaml)) (names : List String) (hne : "" ∉ names) (i : Nat) (n : String)
    (hi : names[i]? = some n) (conf : List (String × Yaml)) (hn : Dict.get? peers n = some (.map conf)) (url token : String)
    (hu : Dict.get? conf "url" = some (.str url)) (ht : Dict.get? conf "token" = some (.str token)) :
    (gets peers names [])[i]? = some (.ok ⟨url, token⟩) := by
  rw [C104_peers peers names hne, List.getElem?_map, hi]
  simp only [Option.map_some, hn]
  have : fromConf (.map conf) = .ok ⟨url, token⟩ := by
    simp only [fromConf, Yaml.item, hu, ht, textOf]
    rfl
  rw [this]

/-! ## The command line client -/

theorem decimal_nat (n : Nat) : decimal (n : Int) = Nat.toDigits 10 n := by
  unfold decimal
  rw [if_neg (by omega), Int.natAbs_natCast]

theorem decimal_digits (n : Nat) : ∀ c ∈ decimal (n : Int), c.isDigit = true := by
  rw [decimal_nat]
  exact fun c hc => Nat.isDigit_of_mem_toDigits (by decide) (by decide) hc

theorem decimal_value (n : Nat) : decimalValue (decimal (n : Int)) = n := by
  rw [decimal_nat]
  exact Nat.ofDigitChars_toDigits (by decide) (by decide)

theorem pyIntStr_decimal (n : Nat) : pyIntStr (decimal (n : Int)) = .ok (n : Int) := by
  unfold pyIntStr
  rw [strip_eq_self _ (fun c hc => not_ws_of_digit (decimal_digits n c hc)),
    pyInt_digits _ (by rw [decimal_nat]; exact Nat.toDigits_ne_nil) (decimal_digits n), decimal_value]

theorem digit_special {c : Char} (h : c.isDigit = true) : c ∉ [':', '/', '?', '#', '@', '['] := by
  intro hm
  simp only [List.mem_cons, List.not_mem_nil, or_false] at hm
  rcases hm with rfl | rfl | rfl | rfl | rfl | rfl <;> revert h <;> decide

theorem takeWhile_self {α : Type} {p : α → Bool} : ∀ {l : List α}, (∀ x ∈ l, p x = true) → l.takeWhile p = l
  | [], _ => rfl
  | x :: l, h => by
    rw [List.takeWhile_cons_of_pos (h x (by simp)), takeWhile_self (fun y hy => h y (by simp [hy]))]

theorem takeWhile_stop {α : Type} {p : α → Bool} {x : α} (hx : p x = false) : ∀ {a b : List α}, (∀ y ∈ a, p y = true) →
    (a ++ x :: b).takeWhile p = a ∧ (a ++ x :: b).dropWhile p = x :: b
  | [], b, _ => by simp [hx]
  | y :: a, b, h => by
    obtain ⟨h1, h2⟩ := takeWhile_stop hx (a := a) (b := b) (fun z hz => h z (by simp [hz]))
    have hy := h y (by simp)
    simp [List.takeWhile_cons, List.dropWhile_cons, hy, h1, h2]

/-- The URL made of an address and a port. -/
theorem hostInfo_url {a : String} {n : Nat} (h : ∀ c ∈ a.toList, c ∉ ['/', '?', '#', '@']) :
    hostInfo (urlOf a (n : Int)).toList = some (a.toList ++ ':' :: decimal (n : Int)) := by
  have hall : ∀ c ∈ a.toList ++ ':' :: decimal (n : Int), c ∉ ['/', '?', '#', '@'] := by
    intro c hc
    rcases List.mem_append.1 hc with hc | hc
    · exact h c hc
    · rcases List.mem_cons.1 hc with rfl | hc
      · decide
      · intro hm
        exact digit_special (decimal_digits n c hc) (List.mem_cons_of_mem _ (by simp only [List.mem_cons, List.not_mem_nil, or_false] at hm ⊢; rcases hm with h | h | h | h <;> simp [h]))
  unfold hostInfo urlOf
  rw [String.toList_ofList, List.append_assoc]
  have h7 : "http://".toList.length = 7 := by decide
  rw [if_pos (by rw [← h7]; exact List.take_left), show ("http://".toList ++ (a.toList ++ ':' :: decimal (n : Int))).drop 7 =
    a.toList ++ ':' :: decimal (n : Int) by rw [← h7]; exact List.drop_left]
  rw [takeWhile_self (l := a.toList ++ ':' :: decimal (n : Int)), takeWhile_self, List.reverse_reverse]
  · intro c hc
    have := hall c (List.mem_reverse.1 hc)
    simp only [List.mem_cons, List.not_mem_nil, or_false, not_or] at this
    simp [this]
  · intro c hc
    have := hall c hc
    simp only [List.mem_cons, List.not_mem_nil, or_false, not_or] at this
    simp [this]

theorem splitHost_plain {l : List Char} (h : '[' ∉ l) :
    splitHost l = (l.takeWhile (fun c => c ≠ ':'), (l.dropWhile (fun c => c ≠ ':')).drop 1) := by
  unfold splitHost
  rw [if_neg h]

theorem target_plain {a : String} {n : Nat} (h : PlainHost a) (hn : n ≤ 65535) : target (urlOf a (n : Int)) = .ok (a, n) := by
  have hp : ∀ c ∈ a.toList, c ≠ ':' ∧ c ≠ '[' ∧ c ∉ ['/', '?', '#', '@', '['] := by
    intro c hc
    have := h.plain c hc
    simp only [List.mem_cons, List.not_mem_nil, or_false, not_or] at this ⊢
    simp [this]
  have hb : '[' ∉ a.toList ++ ':' :: decimal (n : Int) := by
    intro hm
    rcases List.mem_append.1 hm with hm | hm
    · exact (hp _ hm).2.1 rfl
    · rcases List.mem_cons.1 hm with hm | hm
      · revert hm; decide
      · exact absurd (decimal_digits n _ hm) (by decide)
  obtain ⟨h1, h2⟩ := takeWhile_stop (p := fun c : Char => decide (c ≠ ':')) (x := ':') (by decide) (a := a.toList) (b := decimal (n : Int))
    (fun c hc => by simp [(hp c hc).1])
  unfold target
  rw [hostInfo_url (fun c hc hm => (hp c hc).2.2 (by simp only [List.mem_cons, List.not_mem_nil, or_false] at hm ⊢; rcases hm with h | h | h | h <;> simp [h]))]
  dsimp only
  rw [splitHost_plain hb, h1, h2]
  dsimp only
  rw [List.drop_succ_cons, List.drop_zero, if_neg h.nonempty, if_neg (by rw [decimal_nat]; exact Nat.toDigits_ne_nil), pyIntStr_decimal]
  dsimp only
  rw [if_pos ⟨by omega, by omega⟩, String.ofList_toList]
  rfl

theorem pyDigits_chars : ∀ {l : List Char} {n m : Nat}, pyDigits l n = some m → ∀ c ∈ l, c.isDigit = true ∨ c = '_'
  | [], _, _, _, c, hc => by cases hc
  | '_' :: c :: t, n, m, h, x, hx => by
    rw [pyDigits] at h
    split at h
    · rename_i hd
      simp only [List.mem_cons] at hx
      rcases hx with rfl | rfl | hx
      · exact .inr rfl
      · exact .inl hd
      · exact pyDigits_chars h x hx
    · cases h
  | [c], n, m, h, x, hx => by
    simp only [List.mem_cons, List.not_mem_nil, or_false] at hx
    subst hx
    unfold pyDigits at h
    split at h
    · rename_i heq; cases heq
    · rename_i heq; cases heq
    · rename_i heq; cases heq
      split at h
      · rename_i hd; exact .inl hd
      · cases h
  | c :: d :: t, n, m, h, x, hx => by
    by_cases hc : c = '_'
    · subst hc
      rw [pyDigits] at h
      split at h
      · rename_i hd
        simp only [List.mem_cons] at hx
        rcases hx with rfl | rfl | hx
        · exact .inr rfl
        · exact .inl hd
        · exact pyDigits_chars h x hx
      · cases h
    · rw [pyDigits] at h
      · split at h
        · rename_i hd
          rcases List.mem_cons.1 hx with rfl | hx
          · exact .inl hd
          · exact pyDigits_chars h x hx
        · cases h
      · intro c' t' hcc
        intro _; exact hc hcc

theorem pyNat_chars {l : List Char} {n : Nat} (h : pyNat l = some n) : ∀ c ∈ l, c.isDigit = true ∨ c = '_' := by
  cases l with
  | nil => simp
  | cons d t =>
    simp only [pyNat] at h
    split at h
    · rename_i hd
      intro c hc
      rcases List.mem_cons.1 hc with rfl | hc
      · exact .inl hd
      · exact pyDigits_chars h c hc
    · cases h

theorem pyInt_colon {l : List Char} (h : ':' ∈ l) : pyInt l = none := by
  have hn : ∀ t, ':' ∈ t → pyNat t = none := by
    intro t ht
    cases hp : pyNat t with
    | none => rfl
    | some n => 
      rcases pyNat_chars hp _ ht with h | h
      · exact absurd h (by decide)
      · exact absurd h (by decide)
  unfold pyInt
  split
  · rw [hn _ ((List.mem_cons.1 h).resolve_left (by decide))]; rfl
  · rw [hn _ ((List.mem_cons.1 h).resolve_left (by decide))]; rfl
  · rw [hn _ h]; rfl

theorem dropWhile_mem {p : Char → Bool} {x : Char} (hx : p x = false) : ∀ {l : List Char}, x ∈ l → x ∈ l.dropWhile p
  | c :: l, h => by
    by_cases hc : p c = true
    · rw [List.dropWhile_cons_of_pos hc]
      rcases List.mem_cons.1 h with rfl | h
      · rw [hx] at hc; cases hc
      · exact dropWhile_mem hx h
    · rw [List.dropWhile_cons_of_neg hc]; exact h

theorem strip_mem {x : Char} (hx : x.isWhitespace = false) {l : List Char} (h : x ∈ l) : x ∈ strip l := by
  unfold strip
  rw [List.mem_reverse]
  exact dropWhile_mem hx (List.mem_reverse.2 (dropWhile_mem hx h))

theorem target_colon {a : String} {n : Nat} (h : ColonHost a) : target (urlOf a (n : Int)) = .error .value := by
  have hb : '[' ∉ a.toList ++ ':' :: decimal (n : Int) := by
    intro hm
    rcases List.mem_append.1 hm with hm | hm
    · exact h.plain _ hm (by decide)
    · rcases List.mem_cons.1 hm with hm | hm
      · revert hm; decide
      · exact absurd (decimal_digits n _ hm) (by decide)
  -- the port contains a colon
  have hc : ':' ∈ ((a.toList ++ ':' :: decimal (n : Int)).dropWhile (fun c => decide (c ≠ ':'))).drop 1 := by
    obtain ⟨x, y, hxy, hx⟩ := List.eq_append_cons_of_mem h.colon
    rw [hxy, List.append_assoc, List.cons_append, (takeWhile_stop (p := fun c : Char => decide (c ≠ ':')) (x := ':') (by decide) (a := x)
      (fun c hc => decide_eq_true (fun e => hx (e ▸ hc)))).2]
    simp
  unfold target
  rw [hostInfo_url (fun c hc hm => h.plain c hc (by simp only [List.mem_cons, List.not_mem_nil, or_false] at hm ⊢; rcases hm with h | h | h | h <;> simp [h]))]
  dsimp only
  rw [splitHost_plain hb]
  dsimp only
  split
  · rfl
  · rw [if_neg (List.ne_nil_of_mem hc)]
    have : pyIntStr (((a.toList ++ ':' :: decimal (n : Int)).dropWhile (fun c => decide (c ≠ ':'))).drop 1) = .error .value := by
      unfold pyIntStr
      rw [pyInt_colon (strip_mem (by decide) hc)]
    rw [this]

/-- An address in brackets. -/
theorem target_bracket {a : String} {n : Nat} (hne : a.toList ≠ []) (h : ∀ c ∈ a.toList, c ∉ ['/', '?', '#', '@', '[', ']']) (hn : n ≤ 65535) :
    target (urlOf ("[" ++ a ++ "]") (n : Int)) = .ok (a, n) := by
  have hl : ("[" ++ a ++ "]").toList = '[' :: (a.toList ++ [']']) := by
    rw [String.toList_append, String.toList_append]; rfl
  have hp : ∀ c ∈ ("[" ++ a ++ "]").toList, c ∉ ['/', '?', '#', '@'] := by
    intro c hc hm
    rw [hl, List.mem_cons, List.mem_append, List.mem_singleton] at hc
    rcases hc with rfl | hc | rfl
    · revert hm; decide
    · refine h c hc ?_
      simp only [List.mem_cons, List.not_mem_nil, or_false] at hm ⊢
      rcases hm with h | h | h | h <;> simp [h]
    · revert hm; decide
  have hs : splitHost (("[" ++ a ++ "]").toList ++ ':' :: decimal (n : Int)) = (a.toList, decimal (n : Int)) := by
    obtain ⟨h1, h2⟩ := takeWhile_stop (p := fun c : Char => decide (c ≠ ']')) (x := ']') (by decide) (a := a.toList) (b := ':' :: decimal (n : Int))
      (fun c hc => decide_eq_true (fun e => h c hc (by subst e; decide)))
    have e1 : ("[" ++ a ++ "]").toList ++ ':' :: decimal (n : Int) = '[' :: (a.toList ++ ']' :: ':' :: decimal (n : Int)) := by
      rw [hl]; simp
    have e2 : List.dropWhile (fun c : Char => decide (c ≠ '[')) ('[' :: (a.toList ++ ']' :: ':' :: decimal (n : Int))) =
        '[' :: (a.toList ++ ']' :: ':' :: decimal (n : Int)) := List.dropWhile_cons_of_neg (by decide)
    have e3 : List.dropWhile (fun c : Char => decide (c ≠ ':')) (':' :: decimal (n : Int)) = ':' :: decimal (n : Int) :=
      List.dropWhile_cons_of_neg (by decide)
    unfold splitHost
    rw [e1, if_pos (by simp), e2, List.drop_succ_cons, List.drop_zero, h1, h2, List.drop_succ_cons, List.drop_zero, e3, List.drop_succ_cons,
      List.drop_zero]
  unfold target
  rw [hostInfo_url hp]
  dsimp only
  rw [hs]
  dsimp only
  rw [if_neg hne, if_neg (by rw [decimal_nat]; exact Nat.toDigits_ne_nil), pyIntStr_decimal]
  dsimp only
  rw [if_pos ⟨by omega, by omega⟩, String.ofList_toList]
  rfl

theorem cliClient_spec {c : Yaml} {st : Settings} (h : readConfig c = .ok st) (hp : st.port ≠ 0) (hurl : ∀ l, setting c "api" "cli-default" = some (.map l) → Dict.get? l "url" = none)
    {l : List (String × Yaml)} {token : String} (hl : setting c "api" "cli-default" = some (.map l)) (ht : Dict.get? l "token" = some (.str token)) :
    ∃ a rest, st.addrs = a :: rest ∧ cliClient c = .ok ⟨urlOf a st.port, token⟩ := by
  obtain ⟨m, g, a, d, rfl, hg, ha, h1, h2, h3, h4, h5, h6, h7, h8, h9, h10⟩ := readConfig_ok.1 h
  rw [setting_of ha] at hl
  rw [hl, Option.getD_some] at h8
  rcases (cliDefaultOf_ok (addrs_ne h5)).1 h8 with ⟨k, _⟩ | ⟨_, x, rest, l', e1, e2, e3⟩
  · exact absurd k hp
  · cases e2
    refine ⟨x, rest, e1, ?_⟩
    have hu : Dict.has l "url" = false := by unfold Dict.has; rw [hurl l (by rw [setting_of ha]; exact hl)]; rfl
    rw [if_neg (by rw [hu]; decide)] at e3
    unfold cliClient
    rw [bind_ok]
    refine ⟨st, h, ?_⟩
    rw [e3]
    unfold fromConf
    simp only [bind_ok, item_ok, pure_ok]
    refine ⟨_, ⟨_, rfl, Dict.get?_set_self _ _ _⟩, urlOf x st.port, rfl, .str token, ⟨_, rfl, ?_⟩, token, rfl, rfl⟩
    rw [Dict.get?_set, if_neg (by decide)]
    exact ht

/-- **C105** (partial: see `C105_false_default_address`, `C105_false_base_dir`) The commands that need the daemon find it: if the token of the client is among those of
the API and the first address is a host name or an IPv4 address, then requests go to an address and a port on which the API
listens, and they are authenticated. -/
theorem C105_cli_partial (c : Yaml) (st : Settings) (h : readConfig c = .ok st) (n : Nat) (hp : st.port = (n : Int)) (h0 : n ≠ 0) (hn : n ≤ 65535)
    (l : List (String × Yaml)) (token client : String) (t : Dict String String) (hl : setting c "api" "cli-default" = some (.map l))
    (hu : Dict.get? l "url" = none) (ht : Dict.get? l "token" = some (.str token)) (_htk : Tokens st.tokens t)
    (hin : t.get? token = some client) (hcl : client ≠ "") (a : String) (rest : List String) (ha : st.addrs = a :: rest) (hpl : PlainHost a) :
    ∃ x : Client, cliClient c = .ok x ∧ (∃ site, target x.url = .ok site ∧ site ∈ ApiServer.Conf.bind ⟨t, st.addrs, n⟩) ∧
      ∀ route, Api.Authorized t ⟨some ("Bearer " ++ x.token), route⟩ := by
  obtain ⟨a', rest', e1, e2⟩ := cliClient_spec h (by rw [hp]; omega) (fun l' hl' => by rw [hl] at hl'; cases hl'; exact hu) hl ht
  rw [ha] at e1
  cases e1
  refine ⟨_, e2, ⟨(a, n), ?_, ?_⟩, fun route => ?_⟩
  · rw [hp]; exact target_plain hpl hn
  · unfold ApiServer.Conf.bind
    rw [ha]
    have : a ≠ "" := by
      rintro rfl; exact hpl.nonempty rfl
    simp [this, h0]
  · exact ⟨token, client, rfl, hin, hcl⟩

/-- **C105** (partial) With an IPv6 address the URL has to be configured, with brackets: then requests go to that address and port, and they are
authenticated. -/
theorem C105_given_url_partial (c : Yaml) (st : Settings) (h : readConfig c = .ok st) (n : Nat) (hp : st.port = (n : Int)) (h0 : n ≠ 0) (hn : n ≤ 65535)
    (l : List (String × Yaml)) (token client a : String) (t : Dict String String) (hl : setting c "api" "cli-default" = some (.map l))
    (hu : Dict.get? l "url" = some (.str (urlOf ("[" ++ a ++ "]") n))) (ht : Dict.get? l "token" = some (.str token))
    (hin : t.get? token = some client) (hcl : client ≠ "") (ha : a ∈ st.addrs) (hc : ColonHost a) (hb : ']' ∉ a.toList) :
    ∃ x : Client, cliClient c = .ok x ∧ (∃ site, target x.url = .ok site ∧ site ∈ ApiServer.Conf.bind ⟨t, st.addrs, n⟩) ∧
      ∀ route, Api.Authorized t ⟨some ("Bearer " ++ x.token), route⟩ := by
  have hx : cliClient c = .ok ⟨urlOf ("[" ++ a ++ "]") n, token⟩ := by
    obtain ⟨m, g, a', d, rfl, hg, ha', h1, h2, h3, h4, h5, h6, h7, h8, h9, h10⟩ := readConfig_ok.1 h
    rw [setting_of ha'] at hl
    rw [hl, Option.getD_some] at h8
    rcases (cliDefaultOf_ok (addrs_ne h5)).1 h8 with ⟨k, _⟩ | ⟨_, x, rest, l', e1, e2, e3⟩
    · exact absurd k (by rw [hp]; omega)
    · cases e2
      have hu' : Dict.has l "url" = true := by unfold Dict.has; rw [hu]; rfl
      rw [if_pos hu'] at e3
      unfold cliClient
      rw [bind_ok]
      refine ⟨st, h, ?_⟩
      rw [e3]
      unfold fromConf
      simp only [bind_ok, item_ok, pure_ok]
      exact ⟨_, ⟨_, rfl, hu⟩, _, rfl, _, ⟨_, rfl, ht⟩, token, rfl, rfl⟩
  have hne : a.toList ≠ [] := List.ne_nil_of_mem hc.colon
  refine ⟨_, hx, ⟨(a, n), target_bracket hne ?_ hn, ?_⟩, fun route => ⟨token, client, rfl, hin, hcl⟩⟩
  · intro y hy hm
    by_cases e : y = ']'
    · subst e; exact hb hy
    · refine hc.plain y hy ?_
      simp only [List.mem_cons, List.not_mem_nil, or_false] at hm ⊢
      rcases hm with h | h | h | h | h | h
      · exact .inl h
      · exact .inr (.inl h)
      · exact .inr (.inr (.inl h))
      · exact .inr (.inr (.inr (.inl h)))
      · exact .inr (.inr (.inr (.inr h)))
      · exact absurd h e
  · have : a ≠ "" := by
      rintro rfl; exact hne rfl
    simp only [ApiServer.Conf.bind]
    simp [this, h0, ha]

/-- **C105** is false of the code: if the first address is an IPv6 address, the client has an URL that is not valid.  This is so for the
address that is used if none is configured. -/
theorem C105_false_default_address (c : Yaml) (st : Settings) (h : readConfig c = .ok st) (n : Nat) (hp : st.port = (n : Int)) (h0 : n ≠ 0)
    (l : List (String × Yaml)) (token : String) (hl : setting c "api" "cli-default" = some (.map l))
    (hu : Dict.get? l "url" = none) (ht : Dict.get? l "token" = some (.str token)) :
    (∀ a rest, st.addrs = a :: rest → ColonHost a → ∃ x : Client, cliClient c = .ok x ∧ target x.url = .error .value) ∧
    (setting c "api" "addrs" = none → ∃ x : Client, cliClient c = .ok x ∧ target x.url = .error .value) := by
  have key : ∀ a rest, st.addrs = a :: rest → ColonHost a → ∃ x : Client, cliClient c = .ok x ∧ target x.url = .error .value := by
    intro a rest ha hc
    obtain ⟨a', rest', e1, e2⟩ := cliClient_spec h (by rw [hp]; omega) (fun l' hl' => by rw [hl] at hl'; cases hl'; exact hu) hl ht
    rw [ha] at e1
    cases e1
    refine ⟨_, e2, ?_⟩
    rw [hp]; exact target_colon hc
  refine ⟨key, fun hno => ?_⟩
  have := (C104_settings c st h).2.2.2.2.2.1 hno
  refine key _ _ this ⟨by decide, ?_⟩
  decide

/-- **C105** is false of the code: without `base-dir` the configuration is not accepted, although the manual gives a default. -/
theorem C105_false_base_dir (c : Yaml) (h : setting c "global" "base-dir" = none) (st : Settings) : readConfig c ≠ .ok st := by
  intro hc
  have := (C104_settings c st hc).2.2.1
  rw [h] at this; cases this

/-! ## Examples -/

/-- The example of the manual (`doc/backy.conf.example`), shortened, with `addrs` as given. -/
def exConfig (api : List (String × Yaml)) : Yaml := .map [
  ("global", .map [("base-dir", .str "/my/backydir"), ("worker-limit", .int 3), ("backup-completed-callback", .str "/path/to/script.sh")]),
  ("api", .map (api ++ [("tokens", .map [("test-token", .str "test-server"), ("cli-token", .str "cli")]),
    ("cli-default", .map [("token", .str "cli-token")])])),
  ("peers", .map [("test-server", .map [("url", .str "https://example.com:1234"), ("token", .str "token2")])]),
  ("schedules", .map [("default", .map [("daily", .map [("interval", .str "1d"), ("keep", .int 7)]),
    ("weekly", .map [("interval", .str "1w"), ("keep", .int 4)])])]),
  ("jobs", .map [("test01", .map [("schedule", .str "default"), ("source", .map [("type", .str "file"), ("filename", .str "/path/to/vm/image")])])])]

/-- The schedule of the example. -/
def exSched : SchedObj :=
  { config := [("daily", .map [("interval", .str "1d"), ("keep", .int 7)]), ("weekly", .map [("interval", .str "1w"), ("keep", .int 4)])]
    tags := [("daily", 24 * 60 * 60 * 1000000, [("interval", .str "1d"), ("keep", .int 7)]),
      ("weekly", 7 * 24 * 60 * 60 * 1000000, [("interval", .str "1w"), ("keep", .int 4)])] }

theorem exSched_ok : configureAll [("default", .map [("daily", .map [("interval", .str "1d"), ("keep", .int 7)]),
    ("weekly", .map [("interval", .str "1w"), ("keep", .int 4)])])] = .ok [("default", exSched)] := by
  have h1 : parseDuration "1d" = .ok (24 * 60 * 60 * 1000000) := by decide +kernel
  have h2 : parseDuration "1w" = .ok (7 * 24 * 60 * 60 * 1000000) := by decide +kernel
  simp [configureAll, configure, configureTags, specOf, intervalOf, Dict.get?, h1, h2, exSched]

/-- What the example with the given addresses sets. -/
def exSettings (a : String) (rest : List String) : Settings :=
  { workerLimit := 3, baseDir := "/my/backydir", callback := some "/path/to/script.sh"
    peers := .map [("test-server", .map [("url", .str "https://example.com:1234"), ("token", .str "token2")])]
    addrs := a :: rest, port := 1234, tokens := .map [("test-token", .str "test-server"), ("cli-token", .str "cli")]
    cliDefault := .map [("token", .str "cli-token"), ("url", .str (urlOf a 1234))], schedules := [("default", exSched)] }

theorem exConfig_ok (s a : String) (rest : List String)
    (h : (Commands.splitComma s.toList).map (fun a => String.ofList (strip a)) = a :: rest) :
    readConfig (exConfig [("addrs", .str s), ("port", .int 1234)]) = .ok (exSettings a rest) := by
  refine readConfig_ok.2 ⟨_, _, _, _, rfl, .inl rfl, .inl rfl, rfl, rfl, rfl, rfl, congrArg Except.ok h, rfl, rfl, ?_, rfl, exSched_ok⟩
  exact (cliDefaultOf_ok (by simp [exSettings])).2 (.inr ⟨show (1234 : Int) ≠ 0 by decide, a, rest, _, rfl, rfl, rfl⟩)

/-- The configuration of the manual, whose first address is `127.0.0.1`. -/
example : readConfig (exConfig [("addrs", .str "127.0.0.1, ::1"), ("port", .int 1234)]) = .ok (exSettings "127.0.0.1" ["::1"]) ∧
    PlainHost "127.0.0.1" ∧ Tokens (exSettings "127.0.0.1" ["::1"]).tokens [("test-token", "test-server"), ("cli-token", "cli")] ∧
    urlOf "127.0.0.1" 1234 = "http://127.0.0.1:1234" ∧ target "http://127.0.0.1:1234" = .ok ("127.0.0.1", 1234) ∧
    jobSource "/my/backydir" [("default", exSched)] "test01" (.map [("schedule", .str "default"), ("source", .map [("type", .str "file")])]) =
      .ok ⟨"/my/backydir/test01", exSched, .map [("type", .str "file")]⟩ := by
  refine ⟨exConfig_ok _ _ _ (by decide +kernel), ⟨by decide, by decide⟩, rfl, by decide +kernel, by decide +kernel, rfl⟩

/-- The other way round the client fails. -/
example : readConfig (exConfig [("addrs", .str "::1, 127.0.0.1"), ("port", .int 1234)]) = .ok (exSettings "::1" ["127.0.0.1"]) ∧
    ColonHost "::1" ∧ urlOf "::1" 1234 = "http://::1:1234" ∧ target "http://::1:1234" = .error .value ∧
    target "http://[::1]:1234" = .ok ("::1", 1234) := by
  refine ⟨exConfig_ok _ _ _ (by decide +kernel), ⟨by decide, by decide⟩, by decide +kernel, by decide +kernel, by decide +kernel⟩

example := C104_repository (exConfig [("addrs", .str "::1, 127.0.0.1"), ("port", .int 1234)]) (exSettings "::1" ["127.0.0.1"])
  (exConfig_ok _ _ _ (by decide +kernel)) "test01" (.map [("schedule", .str "default"), ("source", .map [("type", .str "file")])]) _ rfl

/-- A peer with an address and a token, one without. -/
def exPeers : List (String × Yaml) :=
  [("a", .map [("url", .str "https://a:6023"), ("token", .str "ta")]), ("b", .map [("url", .str "https://b:6023")])]

example := C104_peers exPeers ["a", "b", "a", "c"] (by decide)

example := C104_peer_token exPeers ["b", "a", "c"] (by decide) 1 "a" rfl _ rfl "https://a:6023" "ta" rfl rfl

example := C105_cli_partial (exConfig [("addrs", .str "127.0.0.1, ::1"), ("port", .int 1234)]) (exSettings "127.0.0.1" ["::1"])
  (exConfig_ok _ _ _ (by decide +kernel)) 1234 rfl (by decide) (by decide) [("token", .str "cli-token")] "cli-token" "cli"
  [("test-token", "test-server"), ("cli-token", "cli")] rfl rfl rfl (by rfl) rfl (by decide) "127.0.0.1" ["::1"] rfl ⟨by decide, by decide⟩

end Verif.Config
