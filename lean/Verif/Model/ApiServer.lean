import Verif.Model.Api
/-!
# Where the API listens and whose tokens it accepts: `daemon/__init__.py:84-101`, `225-256`, `daemon/api.py:38-97`

The task `api_server_loop` at the granularity of the event loop: while an address is being opened or closed, anything else
may happen, in particular another reload.  The loop of the first configuration needs no event; it is modelled by starting
with the event set.  A reload that raises ends the daemon (C54) and is left out.
-/
namespace Verif.ApiServer
open Verif

/-- An address and a port (`daemon/api.py:83`). -/
abbrev Site := String × Nat

/-- `api_tokens`, `api_addrs`, `api_port` of the daemon (`daemon/__init__.py:86-92`). -/
structure Conf where
  tokens : Dict String String
  addrs : List String
  port : Nat
deriving DecidableEq

/-- `bind_addrs` (`daemon/api.py:83`): empty addresses are skipped, and all of them if the port is 0. -/
def Conf.bind (c : Conf) : List Site :=
  (c.addrs.filter (fun a => a ≠ "" && c.port ≠ 0)).map (fun a => (a, c.port))

/-- Where the task is. -/
inductive Phase
  /-- `await self.reload_api.wait()` (`daemon/__init__.py:254`) -/
  | waiting
  /-- `await site.start()` for `cur` (`daemon/api.py:90`); `rest` are the addresses the loop has not come to -/
  | opening (bind rest : List Site) (cur : Site)
  /-- `await site.stop()` for `cur` (`daemon/api.py:95`) -/
  | closing (bind rest : List Site) (cur : Site)
  /-- an exception has ended `api_server_loop` (`daemon/__init__.py:255-256`) -/
  | dead
deriving DecidableEq

/-- `conf`: the settings the daemon has read last; `flag`: `reload_api.is_set()`; `tokens` and `sites`: those of `BackyAPI`
(`daemon/api.py:38-43`); `listening`: the addresses at which requests are answered. -/
structure Api where
  conf : Conf
  flag : Bool
  tokens : Dict String String
  sites : List Site
  listening : List Site
  phase : Phase
deriving DecidableEq

/-- `BackyAPI.__init__`, `start` (`daemon/api.py:45-71`) after the daemon has read its configuration. -/
def Api.new (c : Conf) : Api := ⟨c, true, [], [], [], .waiting⟩

/-- The second loop of `reconfigure` up to the next `await` (`daemon/api.py:92-97`), then `reload_api.clear()` and the wait
(`daemon/__init__.py:253-254`). -/
def closeNext (bind : List Site) : List Site → Api → Api
  | [], a => { a with flag := false, phase := .waiting }
  | s :: rest, a => if s ∈ bind then closeNext bind rest a else { a with phase := .closing bind rest s }

/-- The first loop of `reconfigure` up to the next `await` (`daemon/api.py:84-90`). -/
def openNext (bind : List Site) : List Site → Api → Api
  | [], a => closeNext bind a.sites a
  | s :: rest, a =>
    if s ∈ a.sites then openNext bind rest a
    else { a with sites := a.sites ++ [s], phase := .opening bind rest s }

/-- The start of `reconfigure` (`daemon/__init__.py:249-252`, `daemon/api.py:77-83`). -/
def begin (a : Api) : Api := openNext a.conf.bind a.conf.bind { a with tokens := a.conf.tokens }

/-- Events. -/
inductive Ev
  /-- a reload (`daemon/__init__.py:225-230`) with these settings -/
  | reload (c : Conf)
  /-- the task continues since the event is set -/
  | wake
  /-- the address in progress has been opened or closed -/
  | done
  /-- that has failed -/
  | failed

/-- One event: `none` if it is not possible now. -/
def step (a : Api) : Ev → Option Api
  | .reload c => some { a with conf := c, flag := true }
  | .wake =>
    match a.phase, a.flag with
    | .waiting, true => some (begin a)
    | _, _ => none
  | .done =>
    match a.phase with
    | .opening b rest s => some (openNext b rest { a with listening := a.listening ++ [s] })
    | .closing b rest s =>
      some (closeNext b rest { a with listening := a.listening.filter (· ≠ s), sites := a.sites.filter (· ≠ s) })
    | _ => none
  | .failed =>
    match a.phase with
    | .opening _ _ _ => some { a with phase := .dead }
    | .closing _ _ _ => some { a with phase := .dead }
    | _ => none

/-- A sequence of events. -/
def runs : Api → List Ev → Option Api
  | a, [] => some a
  | a, e :: es => (step a e).bind (fun b => runs b es)

end Verif.ApiServer
