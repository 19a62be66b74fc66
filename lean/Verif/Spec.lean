import Verif.Itr
/-!
# Specification vocabulary: graphs, patterns, orders, updates

Nothing here models code.  A graph is a list of triples without repetitions.
-/
namespace Trident

/-- A triple of term ids: subject, predicate, object. -/
structure Triple where
  s : Int
  p : Int
  o : Int
deriving DecidableEq, Repr

/-- The three positions of a triple. -/
inductive Pos | s | p | o
deriving DecidableEq, Repr

/-- The term at a position. -/
def Triple.at (t : Triple) : Pos → Int
  | .s => t.s
  | .p => t.p
  | .o => t.o

/-- The six orders in which a graph can be stored, named by the order of the positions. -/
inductive Order | spo | ops | pos | sop | osp | pso
deriving DecidableEq, Repr

/-- The positions of an order, first to third, as spelled by its name. -/
def Order.positions : Order → Pos × Pos × Pos
  | .spo => (.s, .p, .o)
  | .ops => (.o, .p, .s)
  | .pos => (.p, .o, .s)
  | .sop => (.s, .o, .p)
  | .osp => (.o, .s, .p)
  | .pso => (.p, .s, .o)

/-- A triple as an order lists it: key and pair of values. -/
def Order.key (d : Order) (t : Triple) : Int := t.at d.positions.1

def Order.pair (d : Order) (t : Triple) : Pair := (t.at d.positions.2.1, t.at d.positions.2.2)

/-- What a client reads from a full scan: key, first and second value. -/
abbrev Row3 := Int × Pair

def Order.row (d : Order) (t : Triple) : Row3 := (d.key t, d.pair t)

/-- Lexicographic order on rows. -/
def Row3.lt (a b : Row3) : Prop := a.1 < b.1 ∨ (a.1 = b.1 ∧ Pair.lt a.2 b.2)

instance (a b : Row3) : Decidable (Row3.lt a b) := by unfold Row3.lt; infer_instance

/-- A query pattern: each position a fixed term or free. -/
structure Pattern where
  s : Option Int
  p : Option Int
  o : Option Int

def Pattern.at (q : Pattern) : Pos → Option Int
  | .s => q.s
  | .p => q.p
  | .o => q.o

/-- The pattern matches the triple: every fixed position agrees. -/
def Pattern.Matches (q : Pattern) (t : Triple) : Prop := ∀ x, ∀ v ∈ q.at x, t.at x = v

instance (q : Pattern) (t : Triple) : Decidable (q.Matches t) :=
  decidable_of_iff ((∀ v ∈ q.s, t.s = v) ∧ (∀ v ∈ q.p, t.p = v) ∧ ∀ v ∈ q.o, t.o = v)
    ⟨fun h x => match x with
      | .s => h.1
      | .p => h.2.1
      | .o => h.2.2, fun h => ⟨h .s, h .p, h .o⟩⟩

/-- A batch of updates. -/
inductive Update
  | add (ts : List Triple)
  | del (ts : List Triple)

/-- The triples of a batch. -/
def Update.triples : Update → List Triple
  | .add ts => ts
  | .del ts => ts

/-- The graph after a batch. -/
def Update.apply (g : List Triple) : Update → List Triple
  | .add ts => g ++ ts
  | .del ts => g.filter fun t => t ∉ ts

/-- The batch adds only new triples, or deletes only existing ones; no triple is listed twice.
(The updater filters its input so that this holds.) -/
def Update.Fresh (g : List Triple) : Update → Prop
  | .add ts => ts.Nodup ∧ ∀ t ∈ ts, t ∉ g
  | .del ts => ts.Nodup ∧ ∀ t ∈ ts, t ∈ g

/-- The graph after a history of batches. -/
def applyAll (g : List Triple) (us : List Update) : List Triple := us.foldl Update.apply g

/-- Every batch of the history is fresh for the graph it is applied to. -/
def FreshAll (g : List Triple) : List Update → Prop
  | [] => True
  | u :: us => u.Fresh g ∧ FreshAll (u.apply g) us

/-- The triples that hold after a history of requests.  Adding a triple that holds, or deleting one that does not, changes nothing. -/
def holdsAfter (g : Triple → Prop) : List Update → Triple → Prop
  | [] => g
  | .add ts :: us => holdsAfter (fun t => g t ∨ t ∈ ts) us
  | .del ts :: us => holdsAfter (fun t => g t ∧ t ∉ ts) us

/-- `out` lists the distinct keys of `ks` in increasing order, each with its number of occurrences. -/
def IsTermList (ks : List Int) (out : List (Int × Int)) : Prop :=
  (out.map (·.1)).Pairwise (· < ·) ∧ (∀ v, v ∈ out.map (·.1) ↔ v ∈ ks) ∧
  ∀ q ∈ out, q.2 = (ks.count q.1 : Int)

end Trident
