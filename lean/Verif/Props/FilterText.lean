import Verif.Sparql.FilterTextProofs
import Verif.Props.Expr
/-!
# C84: FILTER keeps the solutions for which the written condition is true

The value of a condition for a solution is `Spec.SCond.truth` in Verif/Sparql/FilterSpec.lean.  Solutions are functions from names of variables to RDF terms.
-/
namespace Trident.Sparql.Parse

open Lex Spec
open Select (Lib Dict Expr)

variable {F : Type} {P : Lib F} {get : GetNumber} {dict : Dict}

/-- C84: a condition in a group keeps the rows for whose solution it is true.  `sol r` is the solution of the row `r`, `holds r` whether the condition is true for
it.  Missing, and wrong in the code: variables that are not bound, see also C79 and C81. -/
theorem C84_condition_partial (hst : Stored P get dict) (hr : ReadsIntegers P) {pre : List (Text × Text)} {num : Text → Nat} {g : Group} (c : SCond)
    (hg : ∀ u ∈ c.constants pre, u.Const get) (hn : ∀ u ∈ c.needed pre, (get u.text).isSome = true) (regs : Tup → Nat → Nat) (rows : List Row) (hne : rows ≠ [])
    (sol : Row → Text → Option Term) (holds : Row → Bool) (hv : ∀ r ∈ rows, ∀ x ∈ c.vars, Holds dict g (regs r.2) num (sol r) x)
    (h : ∀ r ∈ rows, c.truth P pre (sol r) = some (holds r)) :
    ∃ es, encodeFilters get g (c.meaning pre num) = some es ∧ runFilters P dict regs es rows (fun _ => none) = .ok (rows.filter holds) := by
  match rows, hne with
  | r :: rows, _ =>
    obtain ⟨es, he, hs, _⟩ := filters_ok hst hr c (hv r (by simp)) hg hn _ (h r (by simp))
    refine ⟨es, he, runFilters_ok (hst.dictOk hr) regs es hs holds _ ?_ _ Select.C79_start⟩
    intro r' hr'
    obtain ⟨es', he', _, f, h1, h2⟩ := filters_ok hst hr c (hv r' hr') hg hn _ (h r' hr')
    rw [he] at he'
    cases he'
    exact ⟨f, h1, h2⟩

/-- C84: from the text of FILTER to the rows.  The variables of the condition were named before, with the numbers in `names`. -/
theorem C84_filter_partial (hst : Stored P get dict) (hr : ReadsIntegers P) {pre : List (Text × Text)} {g : Group} {c : SCond} {ts rest : List Tok} {d : Bool} {text : Text}
    {names : List (Text × Nat)} {count : Nat} (hc : Constraint pre c ts) (ht : Written text (ts ++ (point d ++ rest))) (ha : After rest) (hd : ∀ t ∈ rest.head?, t.kind ≠ .dot)
    (hlt : ∀ x i, find names x = some i → i < count) (hinj : ∀ x y i, find names x = some i → find names y = some i → x = y)
    (hg : ∀ u ∈ c.constants pre, u.Const get) (hn : ∀ u ∈ c.needed pre, (get u.text).isSome = true) (regs : Tup → Nat → Nat) (rows : List Row) (hne : rows ≠ [])
    (sol : Row → Text → Option Term) (holds : Row → Bool)
    (hv : ∀ r ∈ rows, ∀ x ∈ c.vars, ∃ i t, find names x = some i ∧ Occurs i g ∧ sol r x = some t ∧ t.Ok ∧ dict (regs r.2 i) = some t.text)
    (h : ∀ r ∈ rows, c.truth P pre (sol r) = some (holds r)) :
    ∃ cond s es, readFilter pre names count text = .ok (cond, s) ∧ s.toks = rest ∧ encodeFilters get g cond = some es
      ∧ runFilters P dict regs es rows (fun _ => none) = .ok (rows.filter holds) := by
  obtain ⟨s, num, h1, h2, h3⟩ := C83_filter_partial hc ht ha hd hlt hinj
  obtain ⟨es, h4, h5⟩ := C84_condition_partial hst hr c hg hn regs rows hne sol holds (num := num) (g := g) (fun r hr x hx => by
    obtain ⟨i, t, e1, e2, e3, e4, e5⟩ := hv r hr x hx
    have : num x = i := h3.kept x i e1
    exact ⟨by rw [this]; exact e2, t, e3, e4, by rw [this]; exact e5⟩) h
  exact ⟨_, s, es, h1, h2, h4, h5⟩

/-! ## Examples -/

/-- The dictionary of a list of terms. -/
def dictOf (l : List Term) : Dict := fun i => (l[i]?).map Term.text

/-- A library that reads the integers in literals. -/
def intLib : Lib Unit :=
  { getLong := fun s => integerOf ((s.drop 1).takeWhile (· != 34)), getDouble := fun _ => none, getTime := fun _ => none, ltF := fun _ _ => false, ofInt := fun _ => (),
    bits := fun _ => 0, compareF := fun _ _ _ _ => 0 }

theorem natural_digits {s : Text} {n : Int} (h : naturalOf s = some n) : 34 ∉ s := by
  unfold naturalOf at h
  split at h
  · rename_i h1
    intro h2
    have := h1.2 34 h2
    omega
  · cases h

theorem intLib_reads : ReadsIntegers intLib := by
  intro v n h
  have h34 : 34 ∉ v := by
    unfold integerOf at h
    obtain ⟨h1, _⟩ := Option.filter_eq_some_iff.1 h
    split at h1
    · have := natural_digits h1; simpa using this
    · obtain ⟨m, hm, _⟩ := Option.map_eq_some_iff.1 h1
      have := natural_digits hm; simpa using this
    · exact natural_digits h1
  have key : ∀ (v s : Text), 34 ∉ v → (v ++ 34 :: s).takeWhile (· != 34) = v := by
    intro v s hv
    induction v with
    | nil => simp
    | cons c v ih =>
      simp only [List.mem_cons, not_or] at hv
      rw [List.cons_append, List.takeWhile_cons, if_pos (by simpa using fun e => hv.1 e.symm), ih hv.2]
  show integerOf _ = _
  rw [show (Term.typed v xsdInteger).text.drop 1 = v ++ 34 :: 94 :: 94 :: 60 :: (xsdInteger ++ [62]) from rfl, key v _ h34, h]

theorem ofTerms_stored {l : List Term} (hlen : l.length < 2 ^ 32) (hinj : ∀ j k : Fin l.length, l[j].text = l[k].text → j = k) (hok : ∀ t ∈ l, t.Ok)
    (hty : ∀ t ∈ l, typeOf t ≠ .unknown → (valueOf intLib t).isSome = true) : Stored intLib (ofTerms l) (dictOf l) := by
  have mem : ∀ i t, dictOf l i = some t → ∃ h : i < l.length, l[i].text = t := by
    intro i t h
    unfold dictOf at h
    obtain ⟨u, hu, rfl⟩ := Option.map_eq_some_iff.1 h
    obtain ⟨h1, h2⟩ := List.getElem?_eq_some_iff.1 hu
    exact ⟨h1, by rw [h2]⟩
  refine ⟨?_, ?_, ?_, ?_⟩
  · intro t i
    unfold ofTerms
    rw [List.findIdx?_eq_some_iff_getElem]
    constructor
    · rintro ⟨h1, h2, _⟩
      unfold dictOf
      rw [List.getElem?_eq_getElem h1, Option.map_some, beq_iff_eq.1 h2]
    · intro h
      obtain ⟨h1, h2⟩ := mem i t h
      refine ⟨h1, by simpa using h2, ?_⟩
      intro j hj h3
      have h3 := beq_iff_eq.1 h3
      have := hinj ⟨j, by omega⟩ ⟨i, h1⟩ (by show l[j].text = l[i].text; rw [h2, h3])
      have := Fin.mk.inj_iff.1 this
      omega
  · intro i t h
    obtain ⟨h1, h2⟩ := mem i t h
    exact ⟨l[i], hok _ (List.getElem_mem h1), h2.symm⟩
  · intro i t h
    obtain ⟨h1, _⟩ := mem i t h
    omega
  · intro i t ht h hu
    obtain ⟨h1, h2⟩ := mem i _ h
    rw [← text_inj (hok _ (List.getElem_mem h1)) ht h2] at hu ⊢
    exact hty _ (List.getElem_mem h1) hu

/-- Ids 0 to 5. -/
def cells : List Term :=
  [.iri (str "http://a"), .typed (str "5") xsdInteger, .typed (str "10") xsdInteger, .typed (str "-7") xsdInteger, .plain (str "x"), .blank (str "b")]

theorem cells_stored : Stored intLib (ofTerms cells) (dictOf cells) := by
  refine ofTerms_stored (by decide) (by decide +kernel) ?_ ?_
  · intro t ht
    simp only [cells, List.mem_cons, List.not_mem_nil, or_false] at ht
    rcases ht with rfl | rfl | rfl | rfl | rfl | rfl <;> simp only [Term.Ok] <;> decide +kernel
  · decide +kernel

/-- `?x < 10 && (?y != <http://a> || ?x = 6)`; the integer 6 is not stored -/
def condLess : SCond :=
  .bin .and (.bin .lt (.elem (.var (str "x"))) (.int (str "10")))
    (.bin .or (.bin .ne (.elem (.var (str "y"))) (.elem (.iri (str "http://a")))) (.bin .eq (.elem (.var (str "x"))) (.int (str "6"))))

/-- `{ ?x ?y ?z }` -/
def groupXY : Group := .mk [(.var 0, .var 1, .var 2)] [] [] [] [] []

/-- The solution of a row with the ids of ?x and ?y. -/
def solXY (r : Row) (x : Text) : Option Term := if x = str "x" then cells[col r.2 0]? else if x = str "y" then cells[col r.2 1]? else none

def numXY (x : Text) : Nat := if x = str "x" then 0 else 1

def rowsXY : List Row := [(1, [1, 4]), (2, [2, 4]), (1, [3, 0]), (1, [3, 5]), (1, [1, 0])]

/-- 5 and -7 are less than 10, 10 is not; the third row and the last one have <http://a>. -/
theorem condLess_truth : ∀ r ∈ rowsXY, condLess.truth intLib [] (solXY r) = some (r == (1, [1, 4]) || r == (1, [3, 5])) := by decide +kernel

theorem condLess_ok : (∀ u ∈ condLess.constants [], u.Const (ofTerms cells)) ∧ (∀ u ∈ condLess.needed [], (ofTerms cells u.text).isSome = true) := by
  refine ⟨?_, by decide +kernel⟩
  have e : condLess.constants [] = [.typed (str "10") xsdInteger, .iri (str "http://a"), .typed (str "6") xsdInteger] := by decide +kernel
  rw [e]
  intro u hu
  simp only [List.mem_cons, List.not_mem_nil, or_false] at hu
  rcases hu with rfl | rfl | rfl
  · exact ⟨by rintro c ⟨⟩; decide, by decide +kernel⟩
  · exact ⟨by rintro c ⟨⟩; decide, by decide +kernel⟩
  · exact ⟨by rintro c ⟨⟩; decide, by decide +kernel⟩

theorem vars_XY : ∀ r ∈ rowsXY, ∀ x ∈ condLess.vars, ∃ i t, find [(str "x", 0), (str "y", 1)] x = some i ∧ Occurs i groupXY ∧ solXY r x = some t ∧ t.Ok
    ∧ dictOf cells (Select.exRegs r.2 i) = some t.text := by
  have e : condLess.vars = [str "x", str "y", str "x"] := by decide +kernel
  rw [e]
  intro r hr x hx
  have hok : ∀ (i : Nat) (t : Term), cells[i]? = some t → t.Ok := by
    intro i t h
    have ht := List.mem_of_getElem? h
    simp only [cells, List.mem_cons, List.not_mem_nil, or_false] at ht
    rcases ht with rfl | rfl | rfl | rfl | rfl | rfl <;> simp only [Term.Ok] <;> decide +kernel
  have hlt : ∀ r ∈ rowsXY, col r.2 0 < cells.length ∧ col r.2 1 < cells.length := by decide +kernel
  have cell : ∀ i, i < cells.length → ∃ t, cells[i]? = some t := fun i h => ⟨_, List.getElem?_eq_getElem h⟩
  obtain ⟨t0, h0⟩ := cell _ (hlt r hr).1
  obtain ⟨t1, h1⟩ := cell _ (hlt r hr).2
  simp only [List.mem_cons, List.not_mem_nil, or_false] at hx
  have hx : x = str "x" ∨ x = str "y" := by rcases hx with h | h | h <;> simp [h]
  rcases hx with rfl | rfl
  · exact ⟨0, t0, by decide +kernel, .pattern (List.mem_cons_self ..) (.inl rfl), by simp only [solXY, if_true]; exact h0, hok _ _ h0, by unfold dictOf Select.exRegs; rw [h0]; rfl⟩
  · refine ⟨1, t1, by decide +kernel, .pattern (List.mem_cons_self ..) (.inr (.inl rfl)), ?_, hok _ _ h1, by unfold dictOf Select.exRegs; rw [h1]; rfl⟩
    have : str "y" ≠ str "x" := by decide +kernel
    simp only [solXY, if_neg this, if_true]
    exact h1

example : ∃ es, encodeFilters (ofTerms cells) groupXY (condLess.meaning [] numXY) = some es
    ∧ runFilters intLib (dictOf cells) Select.exRegs es rowsXY (fun _ => none) = .ok (rowsXY.filter fun r => r == (1, [1, 4]) || r == (1, [3, 5])) :=
  C84_condition_partial cells_stored intLib_reads condLess condLess_ok.1 condLess_ok.2 Select.exRegs rowsXY (by decide) solXY _
    (fun r hr x hx => by
      obtain ⟨i, t, h1, h2, h3, h4, h5⟩ := vars_XY r hr x hx
      have e : condLess.vars = [str "x", str "y", str "x"] := by decide +kernel
      have hnum : ∀ x ∈ condLess.vars, find [(str "x", 0), (str "y", 1)] x = some (numXY x) := by rw [e]; decide +kernel
      have : numXY x = i := by have := hnum x hx; rw [h1] at this; exact (Option.some.inj this).symm
      exact ⟨by rw [this]; exact h2, t, h3, h4, by rw [this]; exact h5⟩) condLess_truth

def toksXY : List Tok :=
  [lparen, var1 "x", ⟨.less, []⟩, int1 "10", andTok, lparen, var1 "y", ⟨.notEqual, [33, 61]⟩, ⟨.iri, str "http://a"⟩, orTok, var1 "x", ⟨.equal, [61]⟩, int1 "6", rparen, rparen]

theorem condLess_derives : Constraint [] condLess toksXY := by
  have hx : Derives [] .primary (.elem (.var (str "x"))) [var1 "x"] := .elem (e := .var (str "x")) trivial nofun nofun
  have hy : Derives [] .primary (.elem (.var (str "y"))) [var1 "y"] := .elem (e := .var (str "y")) trivial nofun nofun
  have ha : Derives [] .primary (.elem (.iri (str "http://a"))) [⟨.iri, str "http://a"⟩] := .elem (e := .iri (str "http://a")) (by decide +kernel) nofun nofun
  have ten : Derives [] .primary (.int (str "10")) [int1 "10"] := .int
  have six : Derives [] .primary (.int (str "6")) [int1 "6"] := .int
  have up : ∀ {c : SCond} {ts : List Tok}, Derives [] .primary c ts → Derives [] .add c ts := fun h => .addUp (.mulUp (.unaryUp h))
  have inner : Derives [] .or _ ([var1 "y"] ++ ⟨.notEqual, [33, 61]⟩ :: [⟨.iri, str "http://a"⟩] ++ orTok :: ([var1 "x"] ++ ⟨.equal, [61]⟩ :: [int1 "6"])) :=
    .or (.orUp (.andUp (.rel (op := .ne) (up hy) (up ha) (by decide)))) (.andUp (.rel (op := .eq) (up hx) (up six) (by decide)))
  exact .brackets (s := ([var1 "x"] ++ ⟨.less, []⟩ :: [int1 "10"]) ++ andTok :: (lparen :: (([var1 "y"] ++ ⟨.notEqual, [33, 61]⟩ :: [⟨.iri, str "http://a"⟩] ++ orTok ::
    ([var1 "x"] ++ ⟨.equal, [61]⟩ :: [int1 "6"])) ++ [rparen]))) (.orUp (.and (.andUp (.rel (op := .lt) (up hx) (up ten) (by decide))) (.relUp (up (.paren inner)))))

theorem find_two {a b x : Text} {i : Nat} (h : find [(a, 0), (b, 1)] x = some i) : (x = a ∧ i = 0) ∨ (x = b ∧ i = 1) := by
  unfold find at h
  simp only [List.find?_cons, List.find?_nil] at h
  cases e : (a == x) with
  | true => rw [e] at h; cases h; exact .inl ⟨(by simpa using e : a = x).symm, rfl⟩
  | false =>
    rw [e] at h
    cases e : (b == x) with
    | true => rw [e] at h; cases h; exact .inr ⟨(by simpa using e : b = x).symm, rfl⟩
    | false => rw [e] at h; cases h

example := C84_filter_partial (g := groupXY) (d := false) (rest := [rcurly]) (names := [(str "x", 0), (str "y", 1)]) (count := 2) cells_stored intLib_reads condLess_derives
  (written_print (toksXY ++ (point false ++ [rcurly])) (by decide +kernel)) (by rintro t ⟨⟩; decide) (by rintro t ⟨⟩; decide)
  (fun x i h => by have := find_two h; omega)
  (fun x y i h k => by rcases find_two h with ⟨rfl, h1⟩ | ⟨rfl, h1⟩ <;> rcases find_two k with ⟨rfl, k1⟩ | ⟨rfl, k1⟩ <;> first | rfl | omega)
  condLess_ok.1 condLess_ok.2 Select.exRegs rowsXY (by decide) solXY _ vars_XY condLess_truth

/-- A variable in an alternative of a UNION. -/
example : Occurs 2 (.mk [] [] [[groupXY], [.mk [] [groupXY] [] [] [] []]] [] [] []) :=
  .union (List.mem_cons_self ..) (List.mem_cons_self ..) (.pattern (List.mem_cons_self ..) (.inr (.inr rfl)))

/-! ## Violations -/

/-- What FILTER returns for rows of the example, with the condition of a text. -/
def kept (g : Group) (names : List (Text × Nat)) (text : Text) (rows : List Row) : Option (List Row) :=
  match readFilter [] names names.length text with
  | .ok (c, _) => match encodeFilters (ofTerms cells) g c with
    | some es => match runFilters intLib (dictOf cells) Select.exRegs es rows fun _ => none with
      | .ok rows => some rows
      | .error _ => none
    | none => none
  | .error _ => none

/-- The text is read and gives the rows of the theorem. -/
example : kept groupXY [(str "x", 0), (str "y", 1)] (str "(?x<10&&(?y!=<http://a>||?x=6)) }") rowsXY = some [(1, [1, 4]), (1, [3, 5])] := by decide +kernel

/-- **A variable that only VALUES binds has no value in FILTER.** `VALUES ?x { <http://a> } FILTER(?x = <http://a>)` has no solution. -/
theorem C84_values_violated : kept (.mk [] [] [] [] [([0], [.iri (str "http://a")])] []) [(str "x", 0)] (str "(?x=<http://a>) }") [(1, [0])] = some []
    ∧ (SCond.bin .eq (.elem (.var (str "x"))) (.elem (.iri (str "http://a")))).truth intLib [] (solXY (1, [0])) = some true := by decide +kernel

/-- **In the FILTER of an OPTIONAL, the variables of the outer group have no value.** `OPTIONAL { ?x ?p ?z FILTER(?x = ?y) }`, where the group around it binds ?y. -/
theorem C84_optional_violated : kept (.mk [(.var 0, .var 2, .var 3)] [] [] [] [] []) [(str "x", 0), (str "y", 1)] (str "(?x=?y) }") [(1, [4, 4])] = some []
    ∧ (SCond.bin .eq (.elem (.var (str "x"))) (.elem (.var (str "y")))).truth intLib [] (solXY (1, [4, 4])) = some true := by decide +kernel

/-- **A comparison with a number that is not stored has no defined result,** although 5 is less than 6. -/
theorem C84_order_violated : kept groupXY [(str "x", 0), (str "y", 1)] (str "(?x<6) }") [(1, [1, 4])] = none
    ∧ (SCond.bin .lt (.elem (.var (str "x"))) (.int (str "6"))).truth intLib [] (solXY (1, [1, 4])) = some true
    ∧ (readFilter [] [(str "x", 0), (str "y", 1)] 2 (str "(?x<6) }")).isOk = true := by decide +kernel

/-- **Equality of a number with the same number in other digits is false.** -/
theorem C84_value_violated : kept groupXY [(str "x", 0), (str "y", 1)] (str "(?x=05) }") [(1, [1, 4])] = some [] ∧ integerOf (str "05") = integerOf (str "5") := by
  decide +kernel

end Trident.Sparql.Parse
