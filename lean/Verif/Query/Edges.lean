import Verif.Join.Scan
import Verif.Query.KB
/-!
# The primitives on edges

Models the functions `edg_*`, `grp_*`, `pos_*` and `countEdges` of /repo/include/trident/kb/querier.h, the iterators they return (querier.h:60-274) and
/repo/include/trident/iterators/filtersameitr.h.  The arguments are terms (at least 0) or variables (negative numbers; equal numbers are one variable).
`get` is `Querier::getIterator`.  Not modelled: that the iterators of the store are never given back.
-/
namespace Trident.Edges

/-- querier.h:333-354 `sameVar`: the positions of a variable that occurs twice. -/
def sameVar (s r d : Int) : Option (Nat × Nat) :=
  if s < 0 ∧ r = s then some (0, 1)
  else if s < 0 ∧ d = s then some (0, 2)
  else if r < 0 ∧ d = r then some (1, 2)
  else none

/-! ## FilterSameItr -/

/-- What the memory of a `FilterSameItr` holds: `init` (filtersameitr.h:44-48) sets neither `hn` and `hnc` nor the `key` of `PairItr`.
The factory hands out objects that were used before. -/
structure Old where
  hn : Bool
  hnc : Bool
  key : Int

/-- The fields that change. -/
structure FSt (σ : Type) where
  s : σ
  hn : Bool
  hnc : Bool

/-- The comparison in `hasNext` (filtersameitr.h:77-97). -/
def same (p : Nat × Nat) (r : Row3) : Bool :=
  if p.1 = 0 then (if p.2 = 1 then decide (r.1 = r.2.1) else decide (r.1 = r.2.2)) else decide (r.2.1 = r.2.2)

/-- The loop in `hasNext` (filtersameitr.h:75-98).  The first argument bounds the turns. -/
def find {σ : Type} (I : Itr σ Row3) (p : Nat × Nat) : Nat → σ → Bool × σ
  | 0, s => (false, s)
  | n + 1, s =>
    let h := I.hasNext s
    if h.1 then
      let s' := I.next h.2
      if same p (I.val s') then (true, s') else find I p n s'
    else (false, h.2)

/-- filtersameitr.h:71-104.  `getKey` is not virtual: read as a `PairItr`, the object returns its own `key`. -/
def filterItr {σ : Type} (fuel : Nat) (p : Nat × Nat) (key : Int) (I : Itr σ Row3) : Itr (FSt σ) Row3 where
  hasNext f :=
    if f.hnc then (f.hn, f)
    else
      let r := find I p fuel f.s
      (r.1, ⟨r.2, r.1, true⟩)
  next f := { f with hnc := false }
  val f := (key, (I.val f.s).2)

/-- The iterator after `init`; `moveto` is at filtersameitr.h:140-143. -/
def filtered (fuel : Nat) (p : Nat × Nat) (old : Old) (o : Obj3) : Obj3 where
  σ := FSt o.σ
  I := filterItr fuel p old.key o.I
  mv c1 c2 f := { f with s := o.mv c1 c2 f.s, hnc := false }
  s := ⟨o.s, old.hn, old.hnc⟩

/-! ## Edges -/

/-- querier.h:109-156 `EdgeItr`. -/
structure EdgeItr where
  idx : Nat
  o : Obj3

/-- querier.h:126-155: `getTriple`, from what `getValue` returns. -/
def tripleAt (idx : Nat) (r : Row3) : Triple :=
  ⟨Join.field r ((getInvOrder idx).getD 0 3), Join.field r ((getInvOrder idx).getD 1 3), Join.field r ((getInvOrder idx).getD 2 3)⟩

/-- The loop of a client, which reads a triple after each `next`. -/
def EdgeItr.itr (e : EdgeItr) : Itr e.o.σ Triple where
  hasNext := e.o.I.hasNext
  next := e.o.I.next
  val s := tripleAt e.idx (e.o.I.val s)

/-- What the client reads. -/
def EdgeItr.Returns (e : EdgeItr) (l : List Triple) : Prop := Yields e.itr e.o.s l

/-- A variable as `getIterator` expects it (querier.h:423, 428). -/
def clamp (x : Int) : Int := if x < 0 then -1 else x

/-- querier.h:419-431 `getEdgeItr`; `none`: there is no iterator. -/
def getEdgeItr (get : Nat → Int → Int → Int → QRes) (fuel : Nat) (old : Old) (idx : Nat) (s r d : Int) : Option EdgeItr :=
  match get idx (clamp s) (clamp r) (clamp d) with
  | .itr o =>
    match sameVar s r d with
    | some p => some ⟨idx, filtered fuel p old o⟩
    | none => some ⟨idx, o⟩
  | _ => none

/-- querier.h:625-701: the index that is chosen by `edg_srd` (`spo`), `edg_sdr` (`sop`), `edg_drs` (`ops`), `edg_dsr` (`osp`), `edg_rsd` (`pso`) and `edg_rds` (`pos`). -/
def edgeIndex (n : Order) (s r d : Int) : Order :=
  match n with
  | .spo => if d ≥ 0 then (if r ≥ 0 then .ops else .osp) else if r ≥ 0 then .pso else .spo
  | .sop => if r ≥ 0 then (if d ≥ 0 then .pos else .pso) else if d ≥ 0 then .osp else .sop
  | .ops => if s ≥ 0 then (if r ≥ 0 then .spo else .sop) else if r ≥ 0 then .pos else .ops
  | .osp => if r ≥ 0 then (if s ≥ 0 then .pso else .pos) else if s ≥ 0 then .sop else .osp
  | .pso => if d ≥ 0 then (if s ≥ 0 then .osp else .ops) else if s ≥ 0 then .spo else .pso
  | .pos => if s ≥ 0 then (if d ≥ 0 then .sop else .spo) else if d ≥ 0 then .ops else .pos

/-- The six functions `edg_*`. -/
def edg (get : Nat → Int → Int → Int → QRes) (fuel : Nat) (old : Old) (n : Order) (s r d : Int) : Option EdgeItr :=
  getEdgeItr get fuel old (edgeIndex n s r d).idx s r d

/-- querier.h:703-719 `countEdges`; `card` is `getCard`, and the loop counts while `hasNext`. -/
def countEdges (get : Nat → Int → Int → Int → QRes) (card : Int → Int → Int → Nat) (fuel : Nat) (old : Old) (s r d : Int) : Option Nat :=
  match sameVar s r d with
  | some p =>
    match get 0 s r d with
    | .itr o => some (drain (filtered fuel p old o).I fuel (filtered fuel p old o).s).length
    | _ => none
  | none => some (card s r d)

/-! ## Groups -/

/-- querier.h:158-211 and 213-269: the fields of `OneKeyCardItr` and `TwoKeyCardItr`, with the current key and cardinality of `KeyCardItr`. -/
structure KSt (σ κ : Type) where
  s : σ
  hn : Bool
  hnDone : Bool
  nextDone : Bool
  next : κ × Nat
  current : κ × Nat

/-- The inner loop of `hasNext` (querier.h:186-193, 243-250). -/
def run {σ κ : Type} [DecidableEq κ] (I : Itr σ Row3) (key : Row3 → κ) (k : κ) : Nat → σ → Nat → Nat × Bool × σ
  | 0, s, c => (c, false, s)
  | n + 1, s, c =>
    let h := I.hasNext s
    if h.1 then
      let s' := I.next h.2
      if key (I.val s') ≠ k then (c, true, s') else run I key k n s' (c + 1)
    else (c, false, h.2)

/-- `hasNext` and `next` (querier.h:171-206, 227-264). -/
def grouped {σ κ : Type} [DecidableEq κ] (I : Itr σ Row3) (key : Row3 → κ) (fuel : Nat) : Itr (KSt σ κ) (κ × Nat) where
  hasNext st :=
    if st.hnDone then (st.hn, st)
    else
      let h := if st.nextDone then (true, st.s) else (let h := I.hasNext st.s; if h.1 then (true, I.next h.2) else (false, h.2))
      if h.1 then
        let k := key (I.val h.2)
        let r := run I key k fuel h.2 1
        (true, ⟨r.2.2, true, true, r.2.1, (k, r.1), st.current⟩)
      else (false, { st with s := h.2, hn := false, hnDone := true })
  next st := { st with hnDone := false, current := st.next }
  val st := st.current

/-- The constructors (querier.h:168-169, 224-225); the other fields are not set. -/
def groupedInit {σ κ : Type} (s : σ) (hn : Bool) (x : κ × Nat) : KSt σ κ := ⟨s, hn, false, false, x, x⟩

/-- The keys of `OneKeyCardItr`: `getValue(0)`. -/
def key1 (r : Row3) : Int := r.1

/-- The keys of `TwoKeyCardItr`: `getValue(0)` and `getValue(1)`. -/
def key2 (r : Row3) : Int × Int := (r.1, r.2.1)

/-- querier.h:721-743: which edges `grp_s`, `grp_r` and `grp_d` read if their position is a variable. -/
def groupEdges (x : Pos) (s r d : Int) : Order :=
  match x with
  | .s => if d ≥ 0 then .sop else .spo
  | .p => if d ≥ 0 then .pos else .pso
  | .o => if r ≥ 0 then .ops else .osp

/-- A `KeyCardItr` that reads edges. -/
structure KeyCardItr (κ : Type) where
  σ : Type
  I : Itr σ (κ × Nat)
  s : σ

/-- What the client reads: keys and cardinalities. -/
def KeyCardItr.Returns {κ : Type} (k : KeyCardItr κ) (l : List (κ × Nat)) : Prop := Yields k.I k.s l

/-- querier.h:721-743: `grp_s`, `grp_r` and `grp_d` if their position is a variable.  `g` is in the memory of the iterator. -/
def grp1 (get : Nat → Int → Int → Int → QRes) (fuel : Nat) (old : Old) (g : Bool × (Int × Nat)) (x : Pos) (s r d : Int) : Option (KeyCardItr Int) :=
  (edg get fuel old (groupEdges x s r d) s r d).map fun e => ⟨KSt e.o.σ Int, grouped e.o.I key1 fuel, groupedInit e.o.s g.1 g.2⟩

/-- querier.h:745-791: `grp_sr` (`spo`), `grp_sd` (`sop`), `grp_rs` (`pso`), `grp_rd` (`pos`), `grp_ds` (`osp`) and `grp_dr` (`ops`) if one of their positions is a variable. -/
def grp2 (get : Nat → Int → Int → Int → QRes) (fuel : Nat) (old : Old) (g : Bool × ((Int × Int) × Nat)) (n : Order) (s r d : Int) : Option (KeyCardItr (Int × Int)) :=
  (edg get fuel old n s r d).map fun e => ⟨KSt e.o.σ (Int × Int), grouped e.o.I key2 fuel, groupedInit e.o.s g.1 g.2⟩

/-- What `ConstKeyCardItr` returns (querier.cpp:57-68, querier.h:88-107): its two keys and its cardinality.  `old` is in the memory where `currentKey2` is. -/
def constGroup (card : Nat) (k : Int) (old : Int) : List ((Int × Int) × Nat) := if card > 0 then [((k, old), card)] else []

/-- The constructor with two keys (querier.cpp:63-68): both assignments are to `currentKey1`. -/
def constGroup2 (card : Nat) (_k1 k2 : Int) (old : Int) : List ((Int × Int) × Nat) := if card > 0 then [((k2, old), card)] else []

/-! ## Positions -/

/-- The loop of `pos_*` (querier.h:887-897): the state after `hasNext`, `none` is `throw 10`. -/
def advance {σ α : Type} (I : Itr σ α) : Nat → σ → Option σ
  | 0, s => if (I.hasNext s).1 then some (I.hasNext s).2 else none
  | n + 1, s => if (I.hasNext s).1 then advance I n (I.next (I.hasNext s).2) else none

/-- The six functions `pos_*` (querier.h:884-990); `none`: an exception, or there is no iterator. -/
def posEdge (get : Nat → Int → Int → Int → QRes) (fuel : Nat) (old : Old) (n : Order) (s r d : Int) (pos : Nat) : Option Triple :=
  (edg get fuel old n s r d).bind fun e => (advance e.itr pos e.o.s).map e.itr.val

end Trident.Edges
