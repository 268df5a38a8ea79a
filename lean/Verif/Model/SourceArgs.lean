import Verif.Model.Backend
/-!
# From `backy restore` to the program of the source: `source.py:122-192`, `194-244`, `349-375`, `cli/__init__.py:266-274`,
`588-604`, `rbd/__init__.py:48-77`, `file/__init__.py:18-35`, `s3/__init__.py:13-24`

`backy` has parsed its command line; it starts `backy-<type> -t <taskid> -C <path> restore <uuid> ...`, which parses its
arguments again.  Of `argparse` (standard library) what a parser with two positional arguments and these options does is
modelled: which words are options, abbreviated options, `--option=value`, `--`, missing and superfluous arguments.  Words
are taken one after the other; `argparse` looks at all of them first, which makes a difference for some command lines with
two odd words, but not for those that `backy` builds.  (This part was compared with Python 3.11 on random command lines.)
-/
namespace Verif.SourceArgs
open Verif Verif.Backend

/-- The types of sources (`SOURCE_PLUGINS`, `source.py:23`). -/
inductive Kind | rbd | file | s3
deriving DecidableEq, Repr

/-- `Source.type_` (`rbd/__init__.py:81`, `file/__init__.py:39`, `s3/__init__.py:28`). -/
def Kind.name : Kind → String
  | .rbd => "rbd"
  | .file => "file"
  | .s3 => "s3"

/-- What was given after `backy restore` (`cli/__init__.py:599-603`): nothing, or the type and the arguments of its parser. -/
inductive Given
  | nothing
  | rbd (backend : Backend) (target : String)
  | file (target : String)
  | s3

/-- `RestoreArgs` (`rbd/__init__.py:48-52`, `file/__init__.py:18-20`, `s3/__init__.py:13-14`). -/
inductive Args
  | rbd (backend : Backend) (target : String)
  | file (target : String)
  | s3
deriving DecidableEq, Repr

/-- `str.split("/")` (builtin). -/
def splitSlash : List Char → List (List Char)
  | [] => [[]]
  | c :: cs =>
    if c = '/' then [] :: splitSlash cs
    else
      match splitSlash cs with
      | [] => [[c]]
      | p :: ps => (c :: p) :: ps

/-- The parts of a path that count (pathlib): empty ones and `.` are dropped. -/
def parts (s : List Char) : List (List Char) := (splitSlash s).filter (fun p => p ≠ [] && p ≠ ['.'])

/-- `"/".join` (builtin). -/
def joinSlash : List (List Char) → List Char
  | [] => []
  | [p] => p
  | p :: ps => p ++ '/' :: joinSlash ps

/-- The number of leading slashes that count (pathlib): two stay two, more become one. -/
def rootOf (s : List Char) : List Char :=
  match s with
  | '/' :: '/' :: '/' :: _ => ['/']
  | '/' :: '/' :: _ => ['/', '/']
  | '/' :: _ => ['/']
  | _ => []

/-- `str(Path(s))` (pathlib), on POSIX systems. -/
def pathChars (s : List Char) : List Char :=
  if rootOf s = [] ∧ parts s = [] then ['.'] else rootOf s ++ joinSlash (parts s)

/-- `str(Path(s))` (pathlib; `file/__init__.py:22`, `32`). -/
def pathStr (s : String) : String := String.ofList (pathChars s.toList)

/-- `restore_type.from_args(**restore_args)` (`cli/__init__.py:272-274`, `rbd/__init__.py:58-59`, `file/__init__.py:25-26`,
`s3/__init__.py:23-24`) in a repository whose source has the given type; `kw[...]` raises KeyError. -/
def fromGiven : Kind → Given → Except PyErr Args
  | .rbd, .rbd b t => .ok (.rbd b t)
  | .rbd, _ => .error .key
  | .file, .rbd _ t => .ok (.file t)
  | .file, .file t => .ok (.file (pathStr t))
  | .file, _ => .error .key
  | .s3, _ => .ok .s3

/-- `to_cmdargs` (`rbd/__init__.py:54-55`, `file/__init__.py:21-22`, `s3/__init__.py:15-16`). -/
def Args.cmdargs : Args → List String
  | .rbd b t => ["--backend", b.value, t]
  | .file t => [t]
  | .s3 => []

/-- `CmdLineSource.run("restore", uuid, *args.to_cmdargs())` (`source.py:349-357`, `368-369`): the words after
`backy-<type> -t <taskid> -C <path> restore`. -/
def command (uuid : String) (a : Args) : List String := uuid :: a.cmdargs

/-! ## The parser of the program -/

/-- `-5`, `-.5` and `-1.5` (`_negative_number_matcher` of argparse: `^-\d+$|^-\d*\.\d+$`); digits are ASCII here. -/
def negativeNumber (s : List Char) : Bool :=
  match s with
  | '-' :: rest =>
    match rest.dropWhile Char.isDigit with
    | [] => rest ≠ []
    | '.' :: frac => frac ≠ [] && frac.all Char.isDigit
    | _ => false
  | _ => false

/-- How a word is taken (`_parse_optional` of argparse). -/
inductive Word
  | positional
  | help
  /-- `--backend`, with the value after `=` if there is one -/
  | backend (value : Option String)
  /-- `--` -/
  | rest
  /-- an option the parser does not know -/
  | unknown
  /-- an option with a value it cannot have, or an ambiguous one -/
  | wrong
deriving DecidableEq

/-- A word that starts with a dash: an abbreviation of an option (at least three characters) or unknown.  `known` tells whether
there is the option `--backend`. -/
def dashWord (known : Bool) (s : List Char) : Word :=
  if "-h".toList.isPrefixOf s then
    (match (s.drop 1).dropWhile (· = 'h') with
    | '=' :: _ => .wrong
    | '-' :: _ => .wrong
    | _ => .help)
  else if 3 ≤ s.length ∧ s.isPrefixOf "--help".toList then .help
  else if '=' ∈ s ∧ 2 ≤ (s.takeWhile (· ≠ '=')).length ∧ (s.takeWhile (· ≠ '=')).isPrefixOf "--help".toList then .wrong
  else if known ∧ 3 ≤ (s.takeWhile (· ≠ '=')).length ∧ (s.takeWhile (· ≠ '=')).isPrefixOf "--backend".toList then
    .backend (match s.dropWhile (· ≠ '=') with | [] => none | _ :: v => some (String.ofList v))
  else if negativeNumber s then .positional
  else if ' ' ∈ s then .positional
  else .unknown

/-- `_parse_optional` of argparse. -/
def word (known : Bool) (s : String) : Word :=
  match s.toList with
  | [] => .positional
  | ['-'] => .positional
  | ['-', '-'] => .rest
  | '-' :: cs => dashWord known ('-' :: cs)
  | _ => .positional

/-- The outcome of parsing: the positional arguments and the backend, or the program prints its help and exits with 0, or it
prints an error and exits with 2. -/
inductive Parsed
  | ok (positional : List String) (backend : Backend)
  | help
  | usage
deriving DecidableEq

/-- `parse_args` of the restore parser (`source.py:170-176`, `rbd/__init__.py:61-77`, `file/__init__.py:28-35`).  `n`: how many
positional arguments it has; `bad`: there is an unknown or superfluous word. -/
def parse (known : Bool) (n : Nat) : List String → List String → Backend → Bool → Parsed
  | [], pos, b, bad => if pos.length = n ∧ bad = false then .ok pos b else .usage
  | w :: rest, pos, b, bad =>
    match word known w with
    | .positional => if pos.length < n then parse known n rest (pos ++ [w]) b bad else parse known n rest pos b true
    | .help => .help
    | .wrong => .usage
    | .unknown => parse known n rest pos b true
    | .rest => if (pos ++ rest).length = n ∧ bad = false then .ok (pos ++ rest) b else .usage
    | .backend (some v) =>
      match Backend.parse v with
      | .error _ => .usage
      | .ok b => parse known n rest pos b bad
    | .backend none =>
      match rest with
      | [] => .usage
      | v :: rest' =>
        if word known v = .positional then
          match Backend.parse v with
          | .error _ => .usage
          | .ok b => parse known n rest' pos b bad
        else .usage

/-- What the program of a source is asked to restore: the revision and the arguments. -/
structure Job where
  uuid : String
  args : Args
deriving DecidableEq, Repr

/-- `Source.main` up to `source.restore(...)` (`source.py:195-229`): what is restored, or an exit code without restoring
anything.  `backy-s3` does nothing yet (`s3/__init__.py:53-54`). -/
def receive (k : Kind) (words : List String) : Nat ⊕ Job :=
  match k with
  | .rbd =>
    match parse true 2 words [] .auto false with
    | .ok [u, t] b => .inr ⟨u, .rbd b t⟩
    | .ok _ _ => .inl 2
    | .help => .inl 0
    | .usage => .inl 2
  | .file =>
    match parse false 2 words [] .auto false with
    | .ok [u, t] _ => .inr ⟨u, .file (pathStr t)⟩
    | .ok _ _ => .inl 2
    | .help => .inl 0
    | .usage => .inl 2
  | .s3 => .inl 1

/-- `backy restore` for the revision `uuid` of a repository of the given type (`cli/__init__.py:266-274`): an exception, the exit
code without restoring, or what is restored. -/
def request (k : Kind) (uuid : String) (g : Given) : Except PyErr (Nat ⊕ Job) :=
  match fromGiven k g with
  | .error e => .error e
  | .ok a => .ok (receive k (command uuid a))

end Verif.SourceArgs
