import Verif.Model.PeersConf
import Verif.Props.Accepted
import Verif.Props.Peers
/-!
# C124: an accepted configuration can be carried out (peers)

False of the code: entries of `peers` without URL or token are accepted, and then every run of every job fails after its backup.
-/
namespace Verif.PeersConf
open Verif Verif.Repo Verif.Config Verif.Sync Verif.Daemon Verif.Daemon.Spec

/-- The entry of a peer with which nothing is wrong. -/
def Usable (e : String × Yaml) : Prop :=
  e.1 ≠ "" ∧ ∃ conf url token, e.2 = .map conf ∧ Dict.get? conf "url" = some (.str url) ∧ Dict.get? conf "token" = some (.str token)

/-- An entry without URL, or without token. -/
def Lacking (e : String × Yaml) : Prop :=
  ∃ conf, e.2 = .map conf ∧ (Dict.get? conf "url" = none ∨ Dict.get? conf "token" = none)

theorem fromConf_usable {e : String × Yaml} (h : Usable e) : ∃ c, fromConf e.2 = .ok c := by
  obtain ⟨_, conf, url, token, he, hu, ht⟩ := h
  rw [he]
  simp only [fromConf, Yaml.item, hu, ht, textOf]
  exact ⟨_, rfl⟩

theorem fromConf_lacking {e : String × Yaml} (h : Lacking e) : ∃ x, fromConf e.2 = .error x := by
  obtain ⟨conf, he, h⟩ := h
  rw [he]
  rcases h with h | h
  · exact ⟨.key, by simp only [fromConf, Yaml.item, h]; rfl⟩
  · cases hu : Dict.get? conf "url" with
    | none => exact ⟨.key, by simp only [fromConf, Yaml.item, hu]; rfl⟩
    | some u =>
      cases u <;>
        first
        | exact ⟨.type, by simp only [fromConf, Yaml.item, hu, textOf]; rfl⟩
        | exact ⟨.key, by simp only [fromConf, Yaml.item, hu, h, textOf]; rfl⟩

theorem clients_ok {peers : List (String × Yaml)} : ∀ (names : List String) (made : Dict String Client), "" ∉ names →
    (∀ n ∈ names, ∃ y c, Dict.get? peers n = some y ∧ fromConf y = .ok c) → ∃ d, clients peers names made = .ok d
  | [], made, _, _ => ⟨made, rfl⟩
  | n :: rest, made, hne, h => by
    obtain ⟨y, c, hy, hc⟩ := h n (by simp)
    have hn : n ≠ "" := fun h => hne (by simp [h])
    have hrest := fun d => clients_ok (peers := peers) rest d (fun h => hne (by simp [h])) (fun m hm => h m (by simp [hm]))
    simp only [clients, managerGet]
    cases hm : Dict.get? made n with
    | some c' => exact hrest made
    | none =>
      simp only [if_neg hn, hy, hc]
      exact hrest _

theorem clients_fails {peers : List (String × Yaml)} {name : String} {y : Yaml} (hy : Dict.get? peers name = some y)
    (hf : ∀ c, fromConf y ≠ .ok c) : ∀ (names : List String) (made : Dict String Client), name ∈ names → made.get? name = none →
    ∃ x, clients peers names made = .error x
  | [], _, h, _ => by cases h
  | n :: rest, made, hin, hmade => by
    by_cases hn : n = name
    · subst hn
      simp only [clients, managerGet, hmade]
      split
      · rename_i h
        split at h
        · cases h; exact ⟨_, rfl⟩
        · rw [hy] at h
          dsimp only at h
          cases hfc : fromConf y with
          | error x => rw [hfc] at h; cases h; exact ⟨_, rfl⟩
          | ok c => exact absurd hfc (hf c)
      · rename_i h
        split at h
        · cases h
        · rw [hy] at h
          dsimp only at h
          cases hfc : fromConf y with
          | error x => rw [hfc] at h; cases h
          | ok c => exact absurd hfc (hf c)
    · have hin' : name ∈ rest := (List.mem_cons.1 hin).resolve_left (Ne.symm hn)
      have ih := fun d hd => clients_fails hy hf rest d hin' hd
      simp only [clients, managerGet]
      cases hm : Dict.get? made n with
      | some c' => exact ih made hmade
      | none =>
        dsimp only
        by_cases hne : n = ""
        · simp only [if_pos hne]; exact ⟨_, rfl⟩
        · simp only [if_neg hne]
          cases hp : Dict.get? peers n with
          | none => exact ⟨_, rfl⟩
          | some y' =>
            dsimp only
            cases hfc : fromConf y' with
            | error x => exact ⟨_, rfl⟩
            | ok c =>
              dsimp only
              exact ih _ (by rw [Dict.get?_set, if_neg (Ne.symm hn)]; exact hmade)

/-- In this pass of its loop a job uses these peers. -/
structure Uses (same : Rev → Rev → Bool) (peers : List (String × Yaml)) (p : Pass) : Prop where
  connected : p.connected = true
  skips : ∃ leader, p.skip = waitForLeader peers leader
  pulls : ∃ answer s, p.failing .pull = true ↔ ∀ n, (pullConfigured same peers answer s).1 ≠ .ok n

/-- **C124 (partial)** If every peer has a URL and a token, then the exchange takes place with all of them: it does not fail because of the entries.
Missing: what is accepted as well, see `C124_false_peers_accepted`. -/
theorem C124_peers_partial (same : Rev → Rev → Bool) (peers : List (String × Yaml)) (hnd : (peers.map Prod.fst).Nodup) (h : ∀ e ∈ peers, Usable e)
    (answer : String → Sync.Answer) (s : Repo) :
    pullConfigured same peers answer s = pull same (peers.map (fun e => (e.1, answer e.1))) s ∧
    ∀ leader, waitForLeader peers leader = leader := by
  obtain ⟨d, hd⟩ := clients_ok (peers := peers) (peers.map Prod.fst) [] (by
      intro hm
      obtain ⟨e, he, h0⟩ := List.mem_map.1 hm
      exact (h e he).1 h0) (by
      intro n hn
      obtain ⟨e, he, rfl⟩ := List.mem_map.1 hn
      obtain ⟨c, hc⟩ := fromConf_usable (h e he)
      exact ⟨e.2, c, Dict.get?_of_mem hnd he, hc⟩)
  unfold pullConfigured waitForLeader
  rw [hd]
  exact ⟨rfl, fun _ => rfl⟩

/-- **C124 is false of the code**: if one peer has no URL or no token, every run of every job makes a backup of its own and fails then: nothing is expired or
pushed, no garbage is collected and no callback called, however often it is repeated. -/
theorem C124_false_peers (same : Rev → Rev → Bool) (peers : List (String × Yaml)) (hnd : (peers.map Prod.fst).Nodup)
    (e : String × Yaml) (he : e ∈ peers) (hl : Lacking e) : ∀ (ps : List Pass) (j : Retry),
    (∀ p ∈ ps, Uses same peers p ∧ (∃ t tags, p.planned = .ok (t, tags)) ∧ ∀ a, a ≠ .pull → p.failing a = false) →
    (runForever (some j) ps).map (fun acts => acts.filter visible) =
      ps.map (fun p => [Act.backup ((p.planned.toOption.map Prod.snd).getD ∅), .pull])
  | [], _, _ => rfl
  | p :: ps, j, h => by
    obtain ⟨hu, ⟨t, tags, hp⟩, hok⟩ := h p (by simp)
    obtain ⟨x, hx⟩ := clients_fails (Dict.get?_of_mem hnd he) (fun c hc => by
      obtain ⟨x, hx⟩ := fromConf_lacking hl
      rw [hx] at hc; cases hc) (peers.map Prod.fst) [] (List.mem_map.2 ⟨e, he, rfl⟩) rfl
    have hskip : p.skip = false := by
      obtain ⟨leader, hs⟩ := hu.skips
      rw [hs]
      unfold waitForLeader
      rw [hx]
    have hf : p.failing .pull = true := by
      obtain ⟨answer, s, hpull⟩ := hu.pulls
      refine hpull.2 (fun n hn => ?_)
      unfold pullConfigured at hn
      rw [hx] at hn
      cases hn
    have hsteps : runSteps p.failing (backupSteps p tags) = ([.acquire p.fast, .clean, .backup tags, .scan, .cleanAfter, .pull], false) := by
      simp [backupSteps, runSteps, hf, hok]
    have hpass : (pass j p).1.filter visible = [.backup tags, .pull] ∧ (pass j p).2 = some (j.after false) := by
      have htry : (tryBlock p (j.deadline p t) tags).1.filter visible = [.backup tags, .pull] ∧ (tryBlock p (j.deadline p t) tags).2 = false := by
        unfold tryBlock
        rw [hsteps]
        split
        · exact ⟨rfl, rfl⟩
        · rw [if_neg (by simp [hskip])]
          exact ⟨rfl, rfl⟩
      unfold pass
      rw [if_neg (by simp [hu.connected]), hp]
      dsimp only
      refine ⟨?_, by rw [htry.2]⟩
      rw [List.filter_append, htry.1]
      rfl
    have ih := C124_false_peers same peers hnd e he hl ps (j.after false) (fun q hq => h q (by simp [hq]))
    simp only [List.map_cons, runForever, hpass.2, ih, hp]
    rw [hpass.1]
    rfl

/-- A configuration file with the given peers. -/
def exFile (peers : List (String × Yaml)) : Yaml := .map [
  ("global", .map [("base-dir", .str "/srv/backy")]), ("schedules", .map []), ("peers", .map peers)]

/-- **C124 is false of the code**: the daemon accepts files with such peers. -/
theorem C124_false_peers_accepted (peers : List (String × Yaml)) : ∃ st, readConfig (exFile peers) = .ok st ∧ st.peers = .map peers := by
  have haddr : addrsOf (.str "::1, 127.0.0.1") = .ok ["::1", "127.0.0.1"] := by decide +kernel
  refine ⟨⟨1, "/srv/backy", none, .map peers, ["::1", "127.0.0.1"], 6023, .map [], .map [("url", .str (urlOf "::1" 6023))], []⟩,
    readConfig_ok.2 ⟨_, _, _, _, rfl, .inl rfl, .inr ⟨rfl, rfl⟩, rfl, rfl, rfl, rfl, ?_, rfl, rfl, ?_, rfl, ?_⟩, rfl⟩
  · exact haddr
  · exact (cliDefaultOf_ok (by simp)).2 (.inr ⟨show (6023 : Int) ≠ 0 by decide, "::1", _, _, rfl, rfl, rfl⟩)
  · simp [configureAll]

/-- A peer without token. -/
def exPeers : List (String × Yaml) := [("server2", .map [("url", .str "http://server2:6023"), ("token", .str "t")]), ("server3", .map [("url", .str "http://server3:6023")])]

theorem exPeers_lacking : Lacking ("server3", .map [("url", .str "http://server3:6023")]) := ⟨_, rfl, .inr rfl⟩

/-- The hypotheses are met. -/
example (p : Pass) (hc : p.connected = true) (hp : p.planned = .ok (5, {"daily"})) (hs : p.skip = false) (hf : p.failing .pull = true)
    (ho : ∀ a, a ≠ .pull → p.failing a = false) :
    (runForever (some .init) [p, p]).map (fun acts => acts.filter visible) = [[.backup {"daily"}, .pull], [.backup {"daily"}, .pull]] := by
  have := C124_false_peers sameRev exPeers (by decide) _ (by simp [exPeers]) exPeers_lacking [p, p] .init (by
    intro q hq
    have hq : q = p := by simpa using hq
    subst hq
    refine ⟨⟨hc, ⟨false, ?_⟩, fun _ => Sync.Answer.connection, ⟨[], [], []⟩, ?_⟩, ⟨_, _, hp⟩, ho⟩
    · rw [hs]; decide +kernel
    · rw [hf]
      refine ⟨fun _ n hn => ?_, fun _ => rfl⟩
      have hk : (pullConfigured sameRev exPeers (fun _ => Sync.Answer.connection) ⟨[], [], []⟩).1 = .error .key := by decide +kernel
      rw [hk] at hn
      cases hn)
  rw [this]
  simp [hp, Except.toOption]

example := C124_peers_partial sameRev [("server2", .map [("url", .str "http://server2:6023"), ("token", .str "t")])] (by decide)
  (by intro e he; rw [List.mem_singleton] at he; subst he; exact ⟨by decide, _, _, _, rfl, rfl, rfl⟩) (fun _ => .connection) ⟨[], [], []⟩

end Verif.PeersConf
