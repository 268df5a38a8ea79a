import Verif.Model.Repo
/-!
# Revision specifications: `repository.py:372-553` and the list helpers of `utils.py:505-538`

Simplifications: whitespace is space, tab, CR, LF and the like (`Char.isWhitespace`); `int()` accepts
ASCII digits with single underscores; `datetime.fromisoformat` plus the local time zone is an arbitrary
function `parseDate`; fractional indices are doubled.  `Revision` objects are compared by value,
which agrees with identity inside one history.
-/
namespace Verif.Repo
open Verif

/-- Elements of the token list (`repository.py:373`). -/
inductive Tok
  | str (s : String)
  | rev (r : Rev)
  | revs (l : List Rev)
deriving DecidableEq

/-- What a lookup depends on: the history and the date parser. -/
structure Ctx where
  history : List Rev
  parseDate : String → Option Int

/-- `str.strip` (builtin). -/
def strip (l : List Char) : List Char :=
  ((l.dropWhile Char.isWhitespace).reverse.dropWhile Char.isWhitespace).reverse

/-- Append the stripped text collected so far unless it is empty (`repository.py:381-385`). -/
def pushTok (cur : List Char) (rest : List String) : List String :=
  if strip cur = [] then rest else String.ofList (strip cur) :: rest

/-- `[t.strip() for t in re.split(r"(\(|\)|,|&|\.\.)", spec) if t.strip()]` (`repository.py:381-385`);
`cur` is the text since the last separator. -/
def tokenizeAux : List Char → List Char → List String
  | [], cur => pushTok cur []
  | '(' :: t, cur => pushTok cur ("(" :: tokenizeAux t [])
  | ')' :: t, cur => pushTok cur (")" :: tokenizeAux t [])
  | ',' :: t, cur => pushTok cur ("," :: tokenizeAux t [])
  | '&' :: t, cur => pushTok cur ("&" :: tokenizeAux t [])
  | '.' :: '.' :: t, cur => pushTok cur (".." :: tokenizeAux t [])
  | c :: t, cur => tokenizeAux t (cur ++ [c])

/-- `repository.py:381-385`. -/
def tokenize (s : String) : List String := tokenizeAux s.toList []

/-- `utils.unique` (`utils.py:505-506`): first occurrences. -/
def unique {α : Type} [DecidableEq α] : List α → List α
  | [] => []
  | a :: l => a :: (unique l).filter (fun b => decide (b ≠ a))

/-- `utils.duplicates` (`utils.py:509-510`). -/
def duplicates {α : Type} [DecidableEq α] (a b : List α) : List α :=
  unique (a.filter (fun i => decide (i ∈ b)))

/-- Split at the first occurrence of `v`: `L[:L.index(v)], L[L.index(v)+1:]` (builtin). -/
def splitFirst (v : Tok) : List Tok → Option (List Tok × List Tok)
  | [] => none
  | t :: l =>
    if t = v then some ([], l)
    else match splitFirst v l with
      | none => none
      | some (a, b) => some (t :: a, b)

/-- Split at the last occurrence of `v` (`utils.list_rindex`, `utils.py:513-514`). -/
def splitLast (v : Tok) : List Tok → Option (List Tok × List Tok)
  | [] => none
  | t :: l =>
    match splitLast v l with
    | some (a, b) => some (t :: a, b)
    | none => if t = v then some ([], l) else none

theorem splitFirst_eq {v : Tok} : ∀ {l a b : List Tok}, splitFirst v l = some (a, b) → l = a ++ v :: b
  | [], a, b, h => by simp [splitFirst] at h
  | t :: l, a, b, h => by
    rw [splitFirst] at h
    split at h
    · rename_i ht; cases h; rw [ht]; rfl
    · cases hs : splitFirst v l with
      | none => rw [hs] at h; cases h
      | some p =>
        obtain ⟨a', b'⟩ := p
        rw [hs] at h; cases h
        rw [splitFirst_eq hs]; rfl

theorem splitLast_eq {v : Tok} : ∀ {l a b : List Tok}, splitLast v l = some (a, b) → l = a ++ v :: b
  | [], a, b, h => by simp [splitLast] at h
  | t :: l, a, b, h => by
    rw [splitLast] at h
    cases hs : splitLast v l with
    | some p =>
      obtain ⟨a', b'⟩ := p
      rw [hs] at h; cases h
      rw [splitLast_eq hs]; rfl
    | none =>
      rw [hs] at h
      dsimp only at h
      split at h
      · rename_i ht; cases h; rw [ht]; rfl
      · cases h

/-- The functions of `repository.py:393-398`. -/
inductive Fn | first | last | not | reverse
deriving DecidableEq, Repr

/-- `isinstance(prev[-1], str) and prev[-1] in functions` (`repository.py:399`). -/
def Fn.ofTok : Tok → Option Fn
  | .str "first" => some .first
  | .str "last" => some .last
  | .str "not" => some .not
  | .str "reverse" => some .reverse
  | _ => none

/-- `repository.py:393-398`: `first` and `last` give a revision, the others a list. -/
def Fn.apply (history : List Rev) : Fn → List Rev → Except PyErr Tok
  | .first, l => match l.head? with
    | none => .error .index
    | some r => .ok (.rev r)
  | .last, l => match l.getLast? with
    | none => .error .index
    | some r => .ok (.rev r)
  | .not, l => .ok (.revs (history.filter (fun r => decide (r ∉ l))))
  | .reverse, l => .ok (.revs l.reverse)

/-- ASCII digits with single underscores in between (builtin `int`). -/
def pyDigits : List Char → Nat → Option Nat
  | [], n => some n
  | '_' :: c :: t, n => if c.isDigit then pyDigits t (10 * n + (c.toNat - 48)) else none
  | c :: t, n => if c.isDigit then pyDigits t (10 * n + (c.toNat - 48)) else none

/-- An unsigned number: at least one digit first (builtin `int`). -/
def pyNat : List Char → Option Nat
  | [] => none
  | c :: t => if c.isDigit then pyDigits t (c.toNat - 48) else none

/-- `int(s)` for a stripped string (builtin); `none` is ValueError. -/
def pyInt : List Char → Option Int
  | '-' :: t => (pyNat t).map (fun n => -(n : Int))
  | '+' :: t => (pyNat t).map (fun n => (n : Int))
  | t => (pyNat t).map (fun n => (n : Int))

/-- `Repository.find_by_number` (`repository.py:490-503`).  `history[-spec-1]` is the `spec`-th from
the end. -/
def findByNumber (h : List Rev) (spec : String) : Except PyErr Rev :=
  match pyInt spec.toList with
  | none => .error .value
  | some n =>
    if n < 0 then .error .key
    else match h.reverse[n.toNat]? with
      | none => .error .index
      | some r => .ok r

/-- `Repository.find_by_uuid` (`repository.py:516-524`). -/
def findByUuid (h : List Rev) (spec : String) : Except PyErr Rev :=
  match h.find? (fun r => r.uuid = spec) with
  | none => .error .index
  | some r => .ok r

/-- `Repository.find_by_tag` (`repository.py:505-514`). -/
def findByTag (h : List Rev) (spec : String) : Except PyErr Rev :=
  if spec = "last" ∨ spec = "latest" then
    match h.getLast? with
    | none => .error .index
    | some r => .ok r
  else if spec = "first" then
    match h.head? with
    | none => .error .index
    | some r => .ok r
  else .error .value

/-- The loop of `Repository.find` (`repository.py:542-553`): ValueError and IndexError go on to the next
function, everything else propagates. -/
def tryFinds : List (Except PyErr Rev) → Except PyErr Rev
  | [] => .error .key
  | .ok r :: _ => .ok r
  | .error .value :: t => tryFinds t
  | .error .index :: t => tryFinds t
  | .error e :: _ => .error e

/-- `Repository.find` (`repository.py:532-553`) for a token, which contains no parenthesis
(`tokenize_no_paren`), so that `find_by_function` fails with ValueError. -/
def findTok (h : List Rev) (spec : String) : Except PyErr Rev :=
  let s := String.ofList (strip spec.toList)
  if s = "" ∨ h = [] then .error .key
  else tryFinds [findByNumber h s, findByUuid h s, findByTag h s, .error .value]

/-- `[i for i, r in enumerate(history) if p(r)]` (builtin). -/
def indicesOf (p : Rev → Bool) (h : List Rev) : List Nat :=
  (List.range h.length).filter (fun i => match h[i]? with
    | some r => p r
    | none => false)

/-- `list_get(l, -1, dflt)` (`utils.py:527-528`). -/
def lastOr (l : List Nat) (dflt : Int) : Int :=
  match l.getLast? with
  | none => dflt
  | some i => i

/-- `list_get(l, 0, dflt)` (`utils.py:527-528`). -/
def headOr (l : List Nat) (dflt : Int) : Int :=
  match l.head? with
  | none => dflt
  | some i => i

/-- `Repository.index_by_date` (`repository.py:463-488`), doubled; `none` is `None`. -/
def indexByDate (c : Ctx) (spec : String) : Except PyErr (Option Int) :=
  match c.parseDate spec with
  | none => .ok none
  | some date =>
    let L := lastOr (indicesOf (fun r => decide (r.ts ≤ date)) c.history) (-1)
    let r := headOr (indicesOf (fun r => decide (r.ts ≥ date)) c.history) c.history.length
    if 0 ≤ r - L ∧ r - L ≤ 1 then .ok (some (L + r)) else .error .assertion

/-- `self.history.index(r)` (builtin), doubled. -/
def historyIndex (h : List Rev) (r : Rev) : Except PyErr Int :=
  match h.findIdx? (fun x => decide (x = r)) with
  | none => .error .value
  | some i => .ok (2 * (i : Int))

/-- `Repository.index_by_token` (`repository.py:452-461`), doubled.  Line 457 uses `or`, which treats
index 0 like `None`. -/
def indexByToken (c : Ctx) : Tok → Except PyErr Int
  | .revs _ => .error .assertion
  | .rev r => historyIndex c.history r
  | .str s =>
    match indexByDate c s with
    | .error e => .error e
    | .ok i? =>
      match i? with
      | some i =>
        if i ≠ 0 then .ok i
        else match findTok c.history s with
          | .error e => .error e
          | .ok r => historyIndex c.history r
      | none =>
        match findTok c.history s with
        | .error e => .error e
        | .ok r => historyIndex c.history r

/-- `self.history[ceil(min(a, b)) : floor(max(a, b)) + 1]` (`repository.py:425`) with doubled indices. -/
def sliceBetween (h : List Rev) (a b : Int) : List Rev :=
  let lo := ((min a b) + 1) / 2
  let hi := (max a b) / 2 + 1
  (h.take hi.toNat).drop lo.toNat

/-- `Trust(s.lower())` (`repository.py:439`). -/
def parseTrust (s : String) : Except PyErr Trust :=
  if s.toLower = "trusted" then .ok .trusted
  else if s.toLower = "distrusted" then .ok .distrusted
  else if s.toLower = "verified" then .ok .verified
  else .error .value

/-- `str.removeprefix` (builtin), when the prefix is there. -/
def dropPrefix (s p : String) : String := String.ofList (s.toList.drop p.toList.length)

/-- A single string token (`repository.py:432-450`).  `local` is `server:` and `remote` is `not(server:)`
(lines 446, 448), written out. -/
def evalAtom (c : Ctx) (s : String) : Except PyErr (List Rev) :=
  if startsWith s "server:" then
    .ok (c.history.filter (fun r => decide (dropPrefix s "server:" = r.server)))
  else if startsWith s "tag:" then
    .ok (c.history.filter (fun r => decide (dropPrefix s "tag:" ∈ r.tags)))
  else if startsWith s "trust:" then
    match parseTrust (dropPrefix s "trust:") with
    | .error e => .error e
    | .ok t => .ok (c.history.filter (fun r => decide (t = r.trust)))
  else if s = "all" then .ok c.history
  else if s = "clean" then .ok (c.history.filter (fun r => r.clean))
  else if s = "local" then .ok (c.history.filter (fun r => decide ("" = r.server)))
  else if s = "remote" then
    .ok (c.history.filter (fun r => decide (r ∉ c.history.filter (fun r => decide ("" = r.server)))))
  else match findTok c.history s with
    | .error e => .error e
    | .ok r => .ok [r]

/-- `tokens[0]` (`repository.py:426-450`). -/
def evalTok (c : Ctx) : Tok → Except PyErr (List Rev)
  | .rev r => .ok [r]
  | .revs l => .ok l
  | .str s => evalAtom c s

/-- The range case (`repository.py:420-425`); two or more `..` cannot be unpacked (ValueError). -/
def evalRange (c : Ctx) (a b : List Tok) : Except PyErr (List Rev) :=
  if .str ".." ∈ b then .error .value
  else if ¬ (a.length ≤ 1 ∧ b.length ≤ 1) then .error .assertion
  else match indexByToken c (a.headD (.str "first")) with
    | .error e => .error e
    | .ok i => match indexByToken c (b.headD (.str "last")) with
      | .error e => .error e
      | .ok j => .ok (sliceBetween c.history i j)

/-- `Repository.find_revisions` on a token list (`repository.py:388-450`). -/
def evalToks (c : Ctx) (toks : List Tok) : Except PyErr (List Rev) :=
  if .str "(" ∈ toks ∧ .str ")" ∈ toks then
    match h1 : splitLast (.str "(") toks with
    | none => .error .value
    | some (prev, rest) =>
      match h2 : splitFirst (.str ")") rest with
      | none => .error .value
      | some (middle, next) =>
        match evalToks c middle with
        | .error e => .error e
        | .ok l =>
          match h3 : prev.getLast? with
          | none => evalToks c (prev ++ [.revs l] ++ next)
          | some t =>
            match Fn.ofTok t with
            | some f =>
              match f.apply c.history l with
              | .error e => .error e
              | .ok v => evalToks c (prev.dropLast ++ [v] ++ next)
            | none => evalToks c (prev ++ [.revs l] ++ next)
  else
    match h1 : splitFirst (.str ",") toks with
    | some (a, b) =>
      match evalToks c a with
      | .error e => .error e
      | .ok x => match evalToks c b with
        | .error e => .error e
        | .ok y => .ok (unique (x ++ y))
    | none =>
      match h2 : splitFirst (.str "&") toks with
      | some (a, b) =>
        match evalToks c a with
        | .error e => .error e
        | .ok x => match evalToks c b with
          | .error e => .error e
          | .ok y => .ok (duplicates x y)
      | none =>
        match splitFirst (.str "..") toks with
        | some (a, b) => evalRange c a b
        | none =>
          match toks with
          | [t] => evalTok c t
          | _ => .error .assertion
termination_by toks.length
decreasing_by
  all_goals
    first
    | (have e1 := splitLast_eq h1; have e2 := splitFirst_eq h2; subst e1; subst e2;
       simp only [List.length_append, List.length_cons, List.length_nil, List.length_dropLast]; omega)
    | (have e1 := splitFirst_eq h1; subst e1; simp only [List.length_append, List.length_cons]; omega)
    | (have e1 := splitFirst_eq h2; subst e1; simp only [List.length_append, List.length_cons]; omega)

/-- `Repository.find_revisions` (`repository.py:372-450`). -/
def findRevisions (c : Ctx) (spec : String) : Except PyErr (List Rev) :=
  evalToks c ((tokenize spec).map .str)

/-- `re.fullmatch(r"(\w+)\(.+\)", spec)` with group 1 `first` or `last` (`repository.py:527-528`):
the name, an opening parenthesis, at least one character (`.` matches no line break), a closing parenthesis at the end. -/
def isFirstLastCall (s : String) : Bool :=
  let l := s.toList
  ((("first(".toList.isPrefixOf l && decide (l.length > 7)) ||
    ("last(".toList.isPrefixOf l && decide (l.length > 6))) && !l.contains '\n') && l.getLast? == some ')'

/-- `Repository.find_by_function` (`repository.py:526-530`). -/
def findByFunction (c : Ctx) (spec : String) : Except PyErr Rev :=
  if isFirstLastCall spec then
    match findRevisions c spec with
    | .error e => .error e
    | .ok l => match l.head? with
      | none => .error .index
      | some r => .ok r
  else .error .value

/-- `Repository.find` (`repository.py:532-553`). -/
def find (c : Ctx) (spec : String) : Except PyErr Rev :=
  let s := String.ofList (strip spec.toList)
  if s = "" ∨ c.history = [] then .error .key
  else tryFinds [findByNumber c.history s, findByUuid c.history s, findByTag c.history s,
    findByFunction c s]

end Verif.Repo
