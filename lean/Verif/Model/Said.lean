import Verif.Model.Listing
import Verif.Model.Commands
/-!
# What looking up revisions prints: `repository.py:481`

`index_by_date` has a line `print(spec, L, r)`, so that every date in a revision specifier adds a line to the standard output of
the command.  The other values are those of `Model/RevSpec.lean`.
-/
namespace Verif.Said
open Verif Verif.Chunked Verif.Repo Verif.Commands Verif.Backup Verif.Files

/-- One such line (`repository.py:481`): the text, `L` and `r`. -/
structure Line where
  spec : String
  left : Int
  right : Int
deriving DecidableEq

/-- How it is printed (builtin `print`). -/
def Line.text (l : Line) : String := l.spec ++ " " ++ toString l.left ++ " " ++ toString l.right

/-- What `index_by_date` prints (`repository.py:463-488`): nothing if the text is no date. -/
def byDate (c : Ctx) (spec : String) : List Line :=
  match c.parseDate spec with
  | none => []
  | some date => [⟨spec, lastOr (indicesOf (fun r => decide (r.ts ≤ date)) c.history) (-1),
      headOr (indicesOf (fun r => decide (r.ts ≥ date)) c.history) c.history.length⟩]

/-- `index_by_token` (`repository.py:452-461`). -/
def byToken (c : Ctx) : Tok → List Line
  | .str s => byDate c s
  | _ => []

/-- The range case (`repository.py:420-425`). -/
def range (c : Ctx) (a b : List Tok) : List Line :=
  if .str ".." ∈ b then []
  else if ¬ (a.length ≤ 1 ∧ b.length ≤ 1) then []
  else
    byToken c (a.headD (.str "first")) ++
      match indexByToken c (a.headD (.str "first")) with
      | .error _ => []
      | .ok _ => byToken c (b.headD (.str "last"))

/-- `find_revisions` on a token list (`repository.py:388-450`, see `evalToks`). -/
def toks (c : Ctx) (l : List Tok) : List Line :=
  if .str "(" ∈ l ∧ .str ")" ∈ l then
    match _h1 : splitLast (.str "(") l with
    | none => []
    | some (prev, rest) =>
      match _h2 : splitFirst (.str ")") rest with
      | none => []
      | some (middle, next) =>
        toks c middle ++
          match evalToks c middle with
          | .error _ => []
          | .ok v =>
            match prev.getLast? with
            | none => toks c (prev ++ [.revs v] ++ next)
            | some t =>
              match Fn.ofTok t with
              | some f =>
                match f.apply c.history v with
                | .error _ => []
                | .ok v => toks c (prev.dropLast ++ [v] ++ next)
              | none => toks c (prev ++ [.revs v] ++ next)
  else
    match _h1 : splitFirst (.str ",") l with
    | some (a, b) =>
      toks c a ++
        match evalToks c a with
        | .error _ => []
        | .ok _ => toks c b
    | none =>
      match _h2 : splitFirst (.str "&") l with
      | some (a, b) =>
        toks c a ++
          match evalToks c a with
          | .error _ => []
          | .ok _ => toks c b
      | none =>
        match splitFirst (.str "..") l with
        | some (a, b) => range c a b
        | none => []
termination_by l.length
decreasing_by
  all_goals
    first
    | (have e1 := splitLast_eq _h1; have e2 := splitFirst_eq _h2; subst e1; subst e2;
       simp only [List.length_append, List.length_cons, List.length_nil, List.length_dropLast]; omega)
    | (have e1 := splitFirst_eq _h1; subst e1; simp only [List.length_append, List.length_cons]; omega)
    | (have e1 := splitFirst_eq _h2; subst e1; simp only [List.length_append, List.length_cons]; omega)

/-- What `find_revisions` prints (`repository.py:372-450`). -/
def findRevisions (c : Ctx) (spec : String) : List Line := toks c ((tokenize spec).map .str)

/-- What `find` prints (`repository.py:526-553`): only `find_by_function` evaluates an expression. -/
def find (c : Ctx) (spec : String) : List Line :=
  let s := String.ofList (strip spec.toList)
  if s = "" ∨ c.history = [] then []
  else match tryFinds [findByNumber c.history s, findByUuid c.history s, findByTag c.history s] with
    | .ok _ => []
    | .error _ => if isFirstLastCall s then findRevisions c s else []

/-! ## Commands -/

/-- The standard output of a command on one repository, as lines, and how it ends. -/
structure Output where
  lines : List String
  res : Except PyErr Unit

/-- The lookup comes first, then what the command itself prints; nothing more after an exception. -/
def after (said : List Line) (r : Except PyErr (List String)) : Output :=
  match r with
  | .error e => ⟨said.map Line.text, .error e⟩
  | .ok l => ⟨said.map Line.text ++ l, .ok ()⟩

/-- `backy rev-parse` (`cli/__init__.py:168-173`). -/
def revParse (pd : String → Option Int) (spec : String) (uuid : Bool) (j : Listing.Job) : Output :=
  after (findRevisions ⟨j.repo.history, pd⟩ spec) (Listing.revParse pd spec uuid j)

/-- `backy log --json` (`cli/__init__.py:176-178`); `encode` is the JSON encoder, which gives one line. -/
def logJson (encode : List (Dict String Val) → String) (pd : String → Option Int) (iso : Int → String) (iter : Finset String → List String)
    (spec : String) (j : Listing.Job) : Output :=
  after (findRevisions ⟨j.repo.history, pd⟩ spec) ((Listing.logJson pd iso iter spec j).map (fun l => [encode l]))

/-- `backy log` (`cli/__init__.py:175-229`); `draw` prints the table and the line below. -/
def logTable (draw : Listing.Listing → List String) (pd : String → Option Int) (iter : Finset String → List String)
    (spec : String) (j : Listing.Job) : Output :=
  after (findRevisions ⟨j.repo.history, pd⟩ spec) ((Listing.logTable pd iter spec j).map draw)

/-- `backy-rbd restore <uuid> -` (`source.py:194-244`): the exit code and what it writes to standard output. -/
def mainRestoreOut (env : Env) (uuid : String) (s : Sys) : Nat × Bytes :=
  match Backup.findByUuid s.connect.src.repo uuid with
  | .error _ => (1, [])
  | .ok r =>
    match restoreOut env s.connect.src.w r with
    | (.error _, out) => (1, out)
    | (.ok (), out) => (0, out)

/-- The lines as bytes: the encoding is that of the locale (builtin). -/
def emit (utf8 : String → Bytes) (l : List Line) : Bytes := (l.map (fun x => utf8 (x.text ++ "\n"))).flatten

/-- `restore` with the target `-` (`cli/__init__.py:266-274`): the exit code and everything on standard output.  `buffered`: standard output is
not a terminal, so that Python writes what was printed when it ends, after the program it has started; otherwise at once.  (More than
8 KiB of such lines would be written in pieces.) -/
def restoreCmdOut (env : Env) (utf8 : String → Bytes) (x : Outside) (buffered : Bool) (spec : String) (s : Sys) : Int × Bytes :=
  match Repo.find ⟨s.src.repo.history, x.pd⟩ spec with
  | .error _ => (1, emit utf8 (find ⟨s.src.repo.history, x.pd⟩ spec))
  | .ok r =>
    ((mainRestoreOut env r.uuid s).1,
      if buffered then (mainRestoreOut env r.uuid s).2 ++ emit utf8 (find ⟨s.src.repo.history, x.pd⟩ spec)
      else emit utf8 (find ⟨s.src.repo.history, x.pd⟩ spec) ++ (mainRestoreOut env r.uuid s).2)

/-- `backy restore -r SPEC -` in the directory of a repository (`cli/__init__.py:89-125`). -/
def mainRestoreStdout (env : Env) (utf8 : String → Bytes) (x : Outside) (buffered : Bool) (spec : String) (s : Sys) : Int × Bytes :=
  match x.sch with
  | none => (1, [])
  | some _ => restoreCmdOut env utf8 x buffered spec s.connect

end Verif.Said
