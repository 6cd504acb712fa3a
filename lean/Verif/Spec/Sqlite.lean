import Verif.Model.Sqlite
import Verif.Spec.Commands
/-!
# Specification: how SQLite may be used, and what it does

After the documentation of SQLite: a connection is opened once and closed once, after its statements; a statement is bound before it is
executed, all its parameters are; a column is read only when there is a row.  And what the statements about the table mean.
-/

namespace Securefs.Spec

open Sql

/-- Where a statement is: it may be bound and executed, it is at a row, it is at its end, or it has failed. -/
inductive Phase where
  | ready
  | row
  | done
  | failed
  deriving DecidableEq

/-- A statement that has been prepared and not been destroyed. -/
structure Live where
  num : Nat
  params : Nat
  bound : List Nat
  phase : Phase

/-- The connection: not opened, usable, opened with an error, or gone. -/
inductive Conn where
  | fresh
  | usable
  | broken
  | gone
  deriving DecidableEq

/-- What a user of SQLite has in hand. -/
structure Usage where
  conn : Conn
  made : Nat
  live : List Live

/-- The parameters of a statement are the question marks in it. -/
def paramCount (sql : Bytes) : Nat := sql.count 63

/-- A call that the documentation allows, and what one has in hand then; `none` if it is not allowed. -/
def Usage.next (u : Usage) (a : Api) (r : Reply) : Option Usage :=
  match a with
  | .opening _ _ =>
    if u.conn = .fresh then some { u with conn := if r.handle then (if r.code = 0 then .usable else .broken) else .gone } else none
  | .close => if (u.conn = .usable ∨ u.conn = .broken) ∧ u.live.length = 0 then some { u with conn := .gone } else none
  | .timeout _ => if u.conn = .usable then some u else none
  | .exec _ => if u.conn = .usable ∧ u.live.length = 0 then some u else none
  | .prepare sql =>
    if u.conn = .usable then
      if r.code = 0 then some { u with made := u.made + 1, live := ⟨u.made, paramCount sql, [], .ready⟩ :: u.live } else some u
    else none
  | .reset h => change u h (fun _ => True) fun l => { l with phase := .ready }
  | .bindText h column _ =>
    change u h (fun l => l.phase = .ready ∧ 1 ≤ column ∧ column ≤ l.params) fun l => if r.code = 0 then { l with bound := column :: l.bound } else l
  | .step h =>
    change u h (fun l => (l.phase = .ready ∨ l.phase = .row) ∧ ∀ i ∈ List.range l.params, i + 1 ∈ l.bound) fun l =>
      { l with phase := if r.code = 100 then .row else if r.code = 101 ∨ r.code = 0 then .done else .failed }
  | .columnText h column => change u h (fun l => l.phase = .row ∧ column = 0) id
  | .columnBytes h column => change u h (fun l => l.phase = .row ∧ column = 0) id
  | .finalize h => if u.conn = .usable ∧ ∃ l ∈ u.live, l.num = h then some { u with live := u.live.filter fun l => l.num != h } else none
where
  /-- A call on a statement that has to be there. -/
  change (u : Usage) (h : Nat) (ok : Live → Prop) [DecidablePred ok] (f : Live → Live) : Option Usage :=
    if u.conn = .usable ∧ (∃ l ∈ u.live, l.num = h) ∧ ∀ l ∈ u.live, l.num = h → ok l then
      some { u with live := u.live.map fun l => if l.num = h then f l else l }
    else none

/-- All the calls are allowed, one after the other; the last event comes first. -/
def usage : List Event → Option Usage
  | [] => some ⟨.fresh, 0, []⟩
  | (a, r) :: rest =>
    match usage rest with
    | none => none
    | some u => u.next a r

/-- A call that did what it should. -/
def Fine : Event → Prop
  | (.step _, r) => r.code = 100 ∨ r.code = 101 ∨ r.code = 0
  | (.columnText _ _, _) => True
  | (.columnBytes _ _, _) => True
  | (.finalize _, _) => True
  | (_, r) => r.code = 0

/-- The code that a call returned which did not do what it should. -/
def Failed (e : Event) (code : Nat) : Prop := ¬ Fine e ∧ e.2.code = code

/-! ## What the statements mean -/

/-- A character that is a word of its own: parentheses, comma, semicolon, equals sign, question mark. -/
def isPunct (c : UInt8) : Bool := c == 40 || c == 41 || c == 44 || c == 59 || c == 61 || c == 63

/-- The words of a statement, apart from spaces and line ends; `cur` is the word being read. -/
def sqlWords (cur : Bytes) : Bytes → List Bytes
  | [] => if cur = [] then [] else [cur]
  | c :: rest =>
    if c = 32 ∨ c = 10 then (if cur = [] then [] else [cur]) ++ sqlWords [] rest
    else if isPunct c then (if cur = [] then [] else [cur]) ++ [c] :: sqlWords [] rest
    else sqlWords (cur ++ [c]) rest

/-- Two statements with the same words. -/
def sameSql (a : Bytes) (b : String) : Bool := sqlWords [] a == sqlWords [] (word b)

/-- What a statement does with the rows of the tables; `true` is the second table. -/
inductive Meaning where
  | find
  | keys
  | insert (second : Bool)
  | delete
  deriving DecidableEq

/-- The statements that have to do with rows. -/
def meaning (sql : Bytes) : Option Meaning :=
  if sameSql sql "select encrypted_name from encrypted_mappings where keyed_hash = ?;" then some .find
  else if sameSql sql "select keyed_hash from encrypted_mappings;" then some .keys
  else if sameSql sql "insert or ignore into main.encrypted_mappings (keyed_hash, encrypted_name) values (?, ?);" then some (.insert false)
  else if sameSql sql "insert or ignore into secondary.encrypted_mappings (keyed_hash, encrypted_name) values (?, ?);" then some (.insert true)
  else if sameSql sql "delete from main.encrypted_mappings where keyed_hash = ?;" then some .delete
  else none

/-- The rows of the main table and of the second one. -/
abbrev Rows2 := Bool → List (Bytes × Bytes)

/-- A statement in the hands of SQLite: its parameters, and how many rows it has given. -/
structure Job where
  num : Nat
  sql : Bytes
  args : List (Nat × Bytes)
  pos : Nat

/-- The parameter with a number. -/
def Job.arg (j : Job) (n : Nat) : Bytes := (j.args.lookup n).getD []

/-- The rows, those before the transaction, and the statements. -/
structure Base where
  rows : Rows2
  before : Option Rows2
  made : Nat
  jobs : List Job

/-- A row is added if there is none with this key. -/
def insertRow (R : Rows2) (t : Bool) (k v : Bytes) : Rows2 :=
  fun u => if u = t ∧ (R t).lookup k = none then R t ++ [(k, v)] else R u

/-- The rows with a key are taken out of the main table. -/
def deleteRow (R : Rows2) (k : Bytes) : Rows2 := fun u => if u = false then (R false).filter fun p => p.1 != k else R u

/-- What a query finds. -/
def Job.results (R : Rows2) (j : Job) : List Bytes :=
  match meaning j.sql with
  | some .find => ((R false).lookup (j.arg 1)).toList
  | some .keys => (R false).map Prod.fst
  | _ => []

/-- What a statement changes. -/
def Job.effect (R : Rows2) (j : Job) : Rows2 :=
  match meaning j.sql with
  | some (.insert t) => insertRow R t (j.arg 1) (j.arg 2)
  | some .delete => deleteRow R (j.arg 1)
  | _ => R

/-- The change of a statement that has come to its end. -/
def effectOf (R : Rows2) (h : Nat) (jobs : List Job) : Rows2 :=
  match jobs.find? fun j => j.num = h with
  | some j => j.effect R
  | none => R

/-- What is there after a call that was answered in this way.  A transaction that is open when the connection is closed is rolled back. -/
def Base.next (b : Base) : Event → Base
  | (.prepare sql, r) => if r.code = 0 then { b with made := b.made + 1, jobs := ⟨b.made, sql, [], 0⟩ :: b.jobs } else b
  | (.bindText h c t, r) => if r.code = 0 then { b with jobs := b.jobs.map fun j => if j.num = h then { j with args := (c, t) :: j.args } else j } else b
  | (.step h, r) =>
    if r.code = 100 then { b with jobs := b.jobs.map fun j => if j.num = h then { j with pos := j.pos + 1 } else j }
    else if r.code = 101 then { b with rows := effectOf b.rows h b.jobs }
    else b
  | (.finalize h, _) => { b with jobs := b.jobs.filter fun j => j.num != h }
  | (.exec sql, r) =>
    if r.code ≠ 0 then b
    else if sameSql sql "begin;" then { b with before := some b.rows }
    else if sameSql sql "commit" then { b with before := none }
    else if sameSql sql "rollback" then { b with rows := b.before.getD b.rows, before := none }
    else b
  | (.close, _) => { b with rows := b.before.getD b.rows, before := none }
  | _ => b

/-- What is there after all the calls. -/
def sqlContents (start : Rows2) : List Event → Base
  | [] => ⟨start, none, 0, []⟩
  | e :: rest => (sqlContents start rest).next e

/-- SQLite answers truly: a statement gives its rows one after the other and then comes to its end, unless there is an error; and the text is that
    of the row. -/
def Honest (start : Rows2) (L : Lib) : Prop :=
  ∀ ev h j, (sqlContents start ev).jobs.find? (fun j => j.num = h) = some j →
    (L ev (.step h)).code ≠ 0 ∧
    ((L ev (.step h)).code = 100 → j.pos < (j.results (sqlContents start ev).rows).length) ∧
    ((L ev (.step h)).code = 101 → (j.results (sqlContents start ev).rows).length ≤ j.pos) ∧
    (∀ c x, 0 < j.pos → (j.results (sqlContents start ev).rows)[j.pos - 1]? = some x → (L ev (.columnText h c)).text = x)

/-- What a function of the table is for: the rows after it, and its answer. -/
def tableOp (R : Rows2) : Op → Rows2 × List Bytes
  | .lookup hash => (R, [((R false).lookup hash).getD []])
  | .list _ => (R, (R false).map Prod.fst)
  | .update other hash name => (insertRow R other hash name, [])
  | .remove hash => (deleteRow R hash, [])

/-- Several functions one after the other. -/
def tableOps (R : Rows2) : List Op → Rows2 × List (List Bytes)
  | [] => (R, [])
  | op :: rest => ((tableOps (tableOp R op).1 rest).1, (tableOp R op).2 :: (tableOps (tableOp R op).1 rest).2)

/-- Between two functions of the table: all calls were allowed, the connection is usable, and there is no statement. -/
def AtRest (s : St) : Prop := s.holder = none ∧ ∃ n, usage s.events = some ⟨.usable, n, []⟩

end Securefs.Spec
