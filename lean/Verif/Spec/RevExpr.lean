import Verif.Model.RevSpec
/-!
# Specification of revision expressions

The grammar of the manual (`doc/man-backy.rst`, revision specifier) and its meaning, independent of how the
code searches the token list for parentheses and operators.
-/
set_option linter.dupNamespace false
namespace Verif.Repo.Spec
open Verif Verif.Repo

/-- Nonterminals: primary expressions, terms (primaries and ranges), `&` chains, `,` lists. -/
inductive Lvl | prim | term | conj | disj

/-- Revision expressions by nonterminal. -/
inductive Expr : Lvl → Type
  /-- A plain selector: a number, id, keyword, `tag:…`, `server:…`, `trust:…`, or a date in a range. -/
  | atom (s : String) : Expr .prim
  /-- `first(e)`, `last(e)`, `not(e)`, `reverse(e)`. -/
  | call (f : Fn) (e : Expr .disj) : Expr .prim
  /-- `(e)`. -/
  | group (e : Expr .disj) : Expr .prim
  | single (p : Expr .prim) : Expr .term
  /-- `a..b`, `a..`, `..b` and `..`. -/
  | range (a b : Expr .prim) : Expr .term
  | rangeFrom (a : Expr .prim) : Expr .term
  | rangeTo (b : Expr .prim) : Expr .term
  | rangeAll : Expr .term
  | one (t : Expr .term) : Expr .conj
  | and (t : Expr .term) (e : Expr .conj) : Expr .conj
  | all (t : Expr .conj) : Expr .disj
  | or (t : Expr .conj) (e : Expr .disj) : Expr .disj

/-- The name of a function. -/
def fnName : Fn → String
  | .first => "first"
  | .last => "last"
  | .not => "not"
  | .reverse => "reverse"

/-- The expression as a sequence of words and separators. -/
def Expr.words : {l : Lvl} → Expr l → List String
  | _, .atom s => [s]
  | _, .call f e => fnName f :: "(" :: (e.words ++ [")"])
  | _, .group e => "(" :: (e.words ++ [")"])
  | _, .single p => p.words
  | _, .range a b => a.words ++ ".." :: b.words
  | _, .rangeFrom a => a.words ++ [".."]
  | _, .rangeTo b => ".." :: b.words
  | _, .rangeAll => [".."]
  | _, .one t => t.words
  | _, .and t e => t.words ++ "&" :: e.words
  | _, .all t => t.words
  | _, .or t e => t.words ++ "," :: e.words

/-- The text of the expression; `sp` is the (possibly empty) white space written around every word. -/
def Expr.text {l : Lvl} (sp : List Char) (e : Expr l) : List Char :=
  e.words.flatMap (fun w => sp ++ w.toList ++ sp)

/-- All selectors of the expression satisfy `P`. -/
def Expr.Atoms (P : String → Prop) : {l : Lvl} → Expr l → Prop
  | _, .atom s => P s
  | _, .call _ e => e.Atoms P
  | _, .group e => e.Atoms P
  | _, .single p => p.Atoms P
  | _, .range a b => a.Atoms P ∧ b.Atoms P
  | _, .rangeFrom a => a.Atoms P
  | _, .rangeTo b => b.Atoms P
  | _, .rangeAll => True
  | _, .one t => t.Atoms P
  | _, .and t e => t.Atoms P ∧ e.Atoms P
  | _, .all t => t.Atoms P
  | _, .or t e => t.Atoms P ∧ e.Atoms P

/-- Intersection that keeps the order of the left list, without duplicates. -/
def inter (a b : List Rev) : List Rev := (a.filter (fun r => decide (r ∈ b))).eraseDups

/-- Union: the left list, then what the right list adds, without duplicates. -/
def union (a b : List Rev) : List Rev := (a ++ b).eraseDups

/-- What a function makes of its argument; `first` and `last` of nothing are errors. -/
def fnMeaning (H : List Rev) : Fn → List Rev → Option (List Rev)
  | .first, l => l.head?.map (fun r => [r])
  | .last, l => l.getLast?.map (fun r => [r])
  | .not, l => some (H.filter (fun r => decide (r ∉ l)))
  | .reverse, l => some l.reverse

/-- The meaning of selectors and of range end points, which the grammar is built on. -/
structure Sem where
  history : List Rev
  /-- The revisions a selector stands for. -/
  select : String → Option (List Rev)
  /-- Twice the position of a selector as range end point (odd: between two revisions). -/
  point : String → Option Int
  /-- Twice the position of a revision. -/
  pos : Rev → Option Int

/-- The revisions from one position to another, both included, oldest first, in whichever order. -/
def between (H : List Rev) (a b : Int) : List Rev :=
  (H.zipIdx.filter (fun x => decide (min a b ≤ 2 * (x.2 : Int) ∧ 2 * (x.2 : Int) ≤ max a b))).map Prod.fst

/-- The meaning of an expression: the selected revisions, and for a primary that is a single revision its
position for use in a range; `none` is a lookup error. -/
structure Meaning where
  revs : Option (List Rev)
  point : Option Int

/-- The documented meaning. -/
def Expr.meaning (S : Sem) : {l : Lvl} → Expr l → Meaning
  | _, .atom s => { revs := S.select s, point := S.point s }
  | _, .call f e =>
    let l := (e.meaning S).revs.bind (fnMeaning S.history f)
    { revs := l
      point := if f = .first ∨ f = .last then l.bind (fun l => l.head?.bind S.pos) else none }
  | _, .group e => { revs := (e.meaning S).revs, point := none }
  | _, .single p => { revs := (p.meaning S).revs, point := none }
  | _, .range a b =>
    { revs := (a.meaning S).point.bind (fun i => (b.meaning S).point.map (fun j => between S.history i j))
      point := none }
  | _, .rangeFrom a =>
    { revs := (a.meaning S).point.bind (fun i => (S.point "last").map (fun j => between S.history i j))
      point := none }
  | _, .rangeTo b =>
    { revs := (S.point "first").bind (fun i => (b.meaning S).point.map (fun j => between S.history i j))
      point := none }
  | _, .rangeAll =>
    { revs := (S.point "first").bind (fun i => (S.point "last").map (fun j => between S.history i j))
      point := none }
  | _, .one t => t.meaning S
  | _, .and t e =>
    { revs := (t.meaning S).revs.bind (fun x => (e.meaning S).revs.map (fun y => inter x y)), point := none }
  | _, .all t => t.meaning S
  | _, .or t e =>
    { revs := (t.meaning S).revs.bind (fun x => (e.meaning S).revs.map (fun y => union x y)), point := none }

end Verif.Repo.Spec
