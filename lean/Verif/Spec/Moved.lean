import Verif.Model.Callback
import Verif.Spec.Expiry
import Verif.Props.Push
/-!
# Specification of expiry over several servers
-/
namespace Verif.Moved
open Verif Verif.Repo Verif.Api Verif.Sync Verif.Callback Verif.Repo.Spec

/-- The metadata of a revision in the repository of the job on a server, whether it has the job or only the directory. -/
def stored (job : String) (srv : Server) (u : String) : Option Rev :=
  match srv.dead.get? job with
  | some b => onDisk b.repo.files u
  | none => (srv.jobs.get? job).bind (fun b => onDisk b.repo.files u)

/-- `q` is a complete revision that was made on this server. -/
structure OwnRev (job : String) (srv : Server) (q : Rev) : Prop where
  stored : stored job srv q.uuid = some q
  here : q.server = ""
  complete : q.stats.has "duration" = true

/-- A peer that accepts our token and whose repositories are well-formed. -/
structure Reachable (job : String) (p : Peer) : Prop where
  token : ∃ client, p.srv.tokens.get? p.token = some client ∧ client ≠ ""
  separate : Separate p.srv
  dead : ∀ b, p.srv.dead.get? job = some b → Named b.repo.files
  active : ∀ b, p.srv.jobs.get? job = some b → Named b.repo.files

/-- `H` lists, oldest first, the complete revisions of the job made here and on all peers. -/
structure Everything (job : String) (peers : List Peer) (s : Repo) (H : List Rev) : Prop where
  mem : ∀ r, r ∈ H ↔ (r.server = "" ∧ r.stats.has "duration" = true ∧ onDisk s.files r.uuid = some r) ∨
    ∃ p ∈ peers, ∃ q, OwnRev job p.srv q ∧ r = { q with origTags := q.tags, server := p.name }
  sorted : H.Pairwise (fun a b => a.ts ≤ b.ts)
  nodup : (H.map Rev.uuid).Nodup

/-- What expiry over `H` leaves of a peer's revision. -/
noncomputable def leftTags (sch : Schedule) (now : String → Int) (H : List Rev) (p : Peer) (q : Rev) : Finset String :=
  keptTags sch now H { q with origTags := q.tags, server := p.name }

/-- The peer's revision after expiry: a revision that loses its last tag is removed. -/
noncomputable def expired (sch : Schedule) (now : String → Int) (H : List Rev) (p : Peer) (q : Rev) : Option Rev :=
  if q.tags ≠ ∅ ∧ leftTags sch now H p q = ∅ then none else some { q with tags := leftTags sch now H p q }

/-- Ids are unique over all servers. -/
structure Unique (job : String) (peers : List Peer) (s : Repo) : Prop where
  distinct : (peers.map Peer.name).Nodup
  named : "" ∉ peers.map Peer.name
  here : ∀ p ∈ peers, ∀ q, OwnRev job p.srv q → ∀ x, onDisk s.files q.uuid = some x → x.server = p.name
  across : ∀ p ∈ peers, ∀ p' ∈ peers, ∀ q q', OwnRev job p.srv q → OwnRev job p'.srv q' → q.uuid = q'.uuid → p.name = p'.name
  plain : ∀ p ∈ peers, ∀ q, OwnRev job p.srv q → PlainId q.uuid

end Verif.Moved
