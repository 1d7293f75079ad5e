/-!
# The Hexastore: triples in six indexes of an SQL database

Model of `lib/DB/Hexastore.cpp` with the SQL statements of `lib/DB/Queries.cpp` (cited as `Queries.cpp`).  Each index has three
tables: the names of the first component, those of the second with a reference to the first, those of the third with references
to both.  SQL is represented by its documented meaning:

* `AUTOINCREMENT` gives an id larger than all ids given before; SQLite's documentation leaves open whether an insertion that is
  ignored uses up an id, so the model has both (`gap`);
* `insert or ignore` does nothing if a `unique` or `not null` constraint would be violated; foreign keys are not enforced
  (SQLite's default);
* a `select` in an expression is the first row found, `NULL` if there is none, and nothing equals `NULL`;
* `oid`, where it is not a column, is SQLite's name for the id of the row;
* the order of the rows of a result is unspecified: nothing below depends on it.

Simplification: names are taken literally.  (In the code they are put between double quotes without escaping, and SQLite reads
`"name"` as the column where there is one.)
-/
namespace Phasar.Hexa

/-- A row of a table of first components (`spo_subject`, `Queries.cpp:159-162`; the others are alike: 183-186, 207-210, 231-234,
255-258, 279-282). -/
structure R1 where
  id : Nat
  name : String
deriving DecidableEq, Repr

/-- A row of a table of second components; `a` refers to the first (`spo_predicate`, `Queries.cpp:163-169`, and 187-193, 211-217,
235-241, 259-265, 283-289). -/
structure R2 where
  id : Nat
  name : String
  a : Nat
deriving DecidableEq, Repr

/-- A row of a table of third components; `a` refers to the first, `b` to the second component (`spo_object`,
`Queries.cpp:170-178`, and 194-202, 218-226, 242-250, 266-274, 290-298). -/
structure R3 where
  id : Nat
  name : String
  a : Nat
  b : Nat
deriving DecidableEq, Repr

/-- One of the six indexes (`Queries.cpp:158-178` and the following groups); `n1`, `n2`, `n3` are the last ids given in the three
tables. -/
structure Ix where
  t1 : List R1 := []
  n1 : Nat := 0
  t2 : List R2 := []
  n2 : Nat := 0
  t3 : List R3 := []
  n3 : Nat := 0
deriving DecidableEq, Repr

/-- The last id given after an `insert or ignore` into a table that had `len` rows and has `len'` afterwards
(`AUTOINCREMENT`, `Queries.cpp:160` and the other tables). -/
def bump (gap : Bool) (n len len' : Nat) : Nat := if gap || len != len' then n + 1 else n

/-- `insert or ignore into t (name) values (x)`, with `name` unique (`Queries.cpp:18-19` and the like). -/
def ins1 (t : List R1) (n : Nat) (x : String) : List R1 :=
  if t.any (fun r => r.name == x) then t else t ++ [⟨n + 1, x⟩]

/-- `insert or ignore into t (name, a) values (x, a)`, with `(name, a)` unique and `a` not null (`Queries.cpp:21-22` and the
like). -/
def ins2 (t : List R2) (n : Nat) (x : String) (a : Option Nat) : List R2 :=
  match a with
  | none => t
  | some a => if t.any (fun r => r.name == x && r.a == a) then t else t ++ [⟨n + 1, x, a⟩]

/-- `insert or ignore into t (name, a, b) values (x, a, b)`, with `(name, a, b)` unique, `a` and `b` not null
(`Queries.cpp:24-27` and the like). -/
def ins3 (t : List R3) (n : Nat) (x : String) (a b : Option Nat) : List R3 :=
  match a, b with
  | some a, some b =>
    if t.any (fun r => r.name == x && r.a == a && r.b == b) then t else t ++ [⟨n + 1, x, a, b⟩]
  | _, _ => t

/-- The index after the three insertions; `a` and `b` are what the third statement looks up, from the two tables before it. -/
def Ix.step (gap : Bool) (ix : Ix) (x y z : String) (r : List R1 → Option Nat) (a b : List R1 → List R2 → Option Nat) : Ix :=
  let t1 := ins1 ix.t1 ix.n1 x
  let t2 := ins2 ix.t2 ix.n2 y (r t1)
  let t3 := ins3 ix.t3 ix.n3 z (a t1 t2) (b t1 t2)
  { t1, n1 := bump gap ix.n1 ix.t1.length t1.length
    t2, n2 := bump gap ix.n2 ix.t2.length t2.length
    t3, n3 := bump gap ix.n3 ix.t3.length t3.length }

/-- `(select id from t where name=x)` on a table of first components. -/
def sel1 (t : List R1) (x : String) : Option Nat := (t.find? (fun r => r.name == x)).map (·.id)

/-- `(select id from t where name=x and a=…)` on a table of second components. -/
def sel2 (t : List R2) (x : String) (a : Option Nat) : Option Nat :=
  (t.find? (fun r => r.name == x && some r.a == a)).map (·.id)

/-- The statements for the indexes whose third statement looks up the ids like the second (`SPOInsert`, `SOPInsert`, `PSOInsert`,
`Queries.cpp:17-51`). -/
def insertRegular (gap : Bool) (ix : Ix) (x y z : String) : Ix :=
  ix.step gap x y z (fun t1 => sel1 t1 x) (fun t1 _ => sel1 t1 x) (fun t1 t2 => sel2 t2 y (sel1 t1 x))

/-- `POSInsert`, `Queries.cpp:53-65`: the reference to the predicate is read from the row of the object. -/
def insertPOS (gap : Bool) (ix : Ix) (p o s : String) : Ix :=
  ix.step gap p o s (fun t1 => sel1 t1 p)
    (fun t1 t2 => (t2.find? (fun r => r.name == o && some r.a == sel1 t1 p)).map (·.a))
    (fun t1 t2 => sel2 t2 o (sel1 t1 p))

/-- `OSPInsert`, `Queries.cpp:67-78`: the reference to the object is selected by name and row id. -/
def insertOSP (gap : Bool) (ix : Ix) (o s p : String) : Ix :=
  ix.step gap o s p (fun t1 => sel1 t1 o)
    (fun t1 _ => (t1.find? (fun r => r.name == o && some r.id == sel1 t1 o)).map (·.id))
    (fun t1 t2 => sel2 t2 s (sel1 t1 o))

/-- `OPSInsert`, `Queries.cpp:80-90`: the predicate is selected by its name alone; the reference to the object is read from the
objects of the index POS, at the row whose id is that of the object in the index OSP. -/
def insertOPS (gap : Bool) (ix pos osp : Ix) (o p s : String) : Ix :=
  ix.step gap o p s (fun t1 => sel1 t1 o)
    (fun _ _ => (pos.t2.find? (fun r => r.name == o && some r.id == sel1 osp.t1 o)).map (·.id))
    (fun _ t2 => (t2.find? (fun r => r.name == p)).map (·.id))

/-- Subject, predicate, object (`HSResult`, `Hexastore.h:31-56`, and the arrays given to `put` and `get`). -/
structure Triple where
  s : String
  p : String
  o : String
deriving DecidableEq, Repr

/-- The database. -/
structure DB where
  spo : Ix
  sop : Ix
  pso : Ix
  pos : Ix
  osp : Ix
  ops : Ix
deriving DecidableEq, Repr

/-- The database after `INIT` (`Hexastore.cpp:19-27`, `Queries.cpp:157-300`) on a new file. -/
def DB.new : DB :=
  ⟨{}, {}, {}, {}, {}, {}⟩

/-- `put`, `Hexastore.cpp:40-58`. -/
def DB.put (gap : Bool) (db : DB) (t : Triple) : DB :=
  let spo := insertRegular gap db.spo t.s t.p t.o
  let sop := insertRegular gap db.sop t.s t.o t.p
  let pso := insertRegular gap db.pso t.p t.s t.o
  let pos := insertPOS gap db.pos t.p t.o t.s
  let osp := insertOSP gap db.osp t.o t.s t.p
  { spo, sop, pso, pos, osp, ops := insertOPS gap db.ops pos osp t.o t.p t.s }

/-- The joins of all searches but one: the second table refers to the first, the third to both (`Queries.cpp:92-106, 117-155`).
`w1`, `w2`, `w3` are the conditions on the names. -/
def joinRegular (ix : Ix) (w1 w2 w3 : String → Bool) : List (String × String × String) :=
  (ix.t1.filter (fun r => w1 r.name)).flatMap fun r1 =>
    (ix.t2.filter (fun r => r1.id == r.a && w2 r.name)).flatMap fun r2 =>
      (ix.t3.filter (fun r => r2.id == r.b && r1.id == r.a && w3 r.name)).map fun r3 => (r1.name, r2.name, r3.name)

/-- The join of `SearchSXO` (`Queries.cpp:108-115`): the *id* of the third row is compared with the id of the second. -/
def joinSXO (ix : Ix) (w1 w2 w3 : String → Bool) : List (String × String × String) :=
  (ix.t1.filter (fun r => w1 r.name)).flatMap fun r1 =>
    (ix.t2.filter (fun r => r1.id == r.a && w2 r.name)).flatMap fun r2 =>
      (ix.t3.filter (fun r => r2.id == r.id && r1.id == r.a && w3 r.name)).map fun r3 => (r1.name, r2.name, r3.name)

/-- No condition. -/
def anyName : String → Bool := fun _ => true

/-- `name="x"`. -/
def isName (x : String) : String → Bool := fun y => y == x

/-- `get`, `Hexastore.cpp:60-111`, with the statements `Queries.cpp:92-155`. -/
def DB.get (db : DB) (q : Triple) : List Triple :=
  if q.s = "?" then
    if q.p = "?" then
      if q.o = "?" then (joinRegular db.spo anyName anyName anyName).map fun x => ⟨x.1, x.2.1, x.2.2⟩
      else (joinRegular db.osp (isName q.o) anyName anyName).map fun x => ⟨x.2.1, x.2.2, x.1⟩
    else
      if q.o = "?" then (joinRegular db.pso (isName q.p) anyName anyName).map fun x => ⟨x.2.1, x.1, x.2.2⟩
      else (joinRegular db.pos (isName q.p) (isName q.o) anyName).map fun x => ⟨x.2.2, x.1, x.2.1⟩
  else
    if q.p = "?" then
      if q.o = "?" then (joinRegular db.spo (isName q.s) anyName anyName).map fun x => ⟨x.1, x.2.1, x.2.2⟩
      else (joinSXO db.sop (isName q.s) (isName q.o) anyName).map fun x => ⟨x.1, x.2.2, x.2.1⟩
    else
      if q.o = "?" then (joinRegular db.spo (isName q.s) (isName q.p) anyName).map fun x => ⟨x.1, x.2.1, x.2.2⟩
      else (joinRegular db.spo (isName q.s) (isName q.p) (isName q.o)).map fun x => ⟨x.1, x.2.1, x.2.2⟩

end Phasar.Hexa
