import Verif.Sparql.ExprProofs
import Verif.Props.Parse
/-!
# C83: conditions are read by the rules of SPARQL

`Spec.Derives` is the grammar of expressions and `Spec.SCond.meaning` what a condition says (Verif/Sparql/ExprSpec.lean).  `Lex.Written` says how tokens are
written in a text (Verif/Sparql/LexerSpec.lean).
-/
namespace Trident.Sparql.Parse

open Lex Spec

/-- What is said about the variables: equal names are equal variables, different names are different variables, and those named before keep their numbers; `names'` are the variables afterwards. -/
structure Numbered (names names' : List (Text × Nat)) (vars : List Text) (num : Text → Nat) : Prop where
  distinct : ∀ x ∈ vars, ∀ y ∈ vars, num x = num y → x = y
  kept : ∀ x i, find names x = some i → num x = i
  declared : ∀ x ∈ vars, find names' x = some (num x)

theorem Numbered.of {a s : St} {vars : List Text} (h : Reads a s vars) (ha : Inv a) : Numbered a.names s.names vars (num s.names) := by
  have hfind : ∀ x ∈ vars, find s.names x = some (num s.names x) := by
    intro x hx
    obtain ⟨i, hi⟩ := Option.isSome_iff_exists.1 (h.declared x hx)
    unfold num
    rw [hi]; rfl
  refine ⟨fun x hx y hy e => (h.inv ha).2 x y _ (hfind x hx) (e ▸ hfind y hy), fun x i hi => ?_, hfind⟩
  unfold num
  rw [h.ext x i hi]; rfl

theorem stop_as {w : Text} (hw : w.map lower = kAs) (rest : List Tok) : Stop 0 (ident w :: rest) := by
  have h1 : isKeyword (ident w) kIn = false := by simp [isKeyword, ident, hw, kAs, kIn]
  have h2 : isKeyword (ident w) kNot = false := by simp [isKeyword, ident, hw, kAs, kNot]
  exact stop_none (by simp [rank, show (ident w).kind = .identifier from rfl, h1, h2])

/-- C83: a condition after FILTER is read by the rules of SPARQL: `||` binds less than `&&`, that less than comparisons, then `+` and `-`, then `*` and `/`, then
`!`; operators of one level are taken from the left; brackets and functions as usual.  `names` are the variables before it.  What follows is left.
Missing: IN and NOT IN, EXISTS, aggregates, numbers with an exponent, functions that are called by prefixed names, the empty prefix, escapes. -/
theorem C83_filter_partial {pre : List (Text × Text)} {c : SCond} {ts rest : List Tok} {d : Bool} {text : Text} {names : List (Text × Nat)} {count : Nat}
    (hc : Constraint pre c ts) (ht : Written text (ts ++ (point d ++ rest))) (hr : After rest) (hd : ∀ t ∈ rest.head?, t.kind ≠ .dot)
    (hlt : ∀ x i, find names x = some i → i < count) (hinj : ∀ x y i, find names x = some i → find names y = some i → x = y) :
    ∃ (s : St) (num : Text → Nat), readFilter pre names count text = .ok (c.meaning pre num, s) ∧ s.toks = rest ∧ Numbered names s.names c.vars num := by
  unfold readFilter
  rw [lex_spec ht]
  obtain ⟨c', s', h1, h2, h3, h4⟩ := parseFilter_ok hc (s := ⟨ts ++ (point d ++ rest), names, count⟩) rfl hr hd
  exact ⟨s', num s'.names, by rw [h1, h4 s'.names (Ext.refl _)], h2, Numbered.of h3 ⟨hlt, hinj⟩⟩

/-- C83: an expression in `BIND(… AS ?x)` is read by the same rules. -/
theorem C83_bind_partial {pre : List (Text × Text)} {c : SCond} {x w : Text} {ts rest : List Tok} {d : Bool} {text : Text} {names : List (Text × Nat)} {count : Nat}
    (hc : Derives pre .or c ts) (hw : w.map lower = [97, 115])
    (ht : Written text (lparen :: (ts ++ ident w :: ⟨.variable, x⟩ :: rparen :: (point d ++ rest)))) (hd : ∀ t ∈ rest.head?, t.kind ≠ .dot)
    (hlt : ∀ x i, find names x = some i → i < count) (hinj : ∀ x y i, find names x = some i → find names y = some i → x = y) :
    ∃ (s : St) (num : Text → Nat), readBind pre names count text = .ok ((c.meaning pre num, num x), s) ∧ s.toks = rest ∧ Numbered names s.names (c.vars ++ [x]) num := by
  unfold readBind
  rw [lex_spec ht]
  unfold assignment
  rw [pop_cons (by rfl)]
  simp only
  rw [if_neg (by decide)]
  obtain ⟨c', s1, h1, h2, h3, h4⟩ := Motive.or (derives hc)
    (n := (lparen :: (ts ++ ident w :: ⟨.variable, x⟩ :: rparen :: (point d ++ rest))).length + 1) (by simp; omega)
    ⟨ts ++ ident w :: ⟨.variable, x⟩ :: rparen :: (point d ++ rest), names, count⟩ _ rfl (stop_as hw _)
  obtain ⟨i, s2, g1, g2, g3, g4⟩ := nameVariable_spec { s1 with toks := rparen :: (point d ++ rest) } x
  have hreads := h3.trans g4.start
  have hn := Numbered.of hreads ⟨hlt, hinj⟩
  have hm := h4 s2.names g4.ext
  have hx : num s2.names x = i := by unfold num; rw [g3]; rfl
  rw [h1]
  simp only [Except.bind]
  rw [pop_cons h2]
  simp only [show isKeyword (ident w) kAs = true by simp [isKeyword, ident, hw, kAs]]
  have he : element pre [] { s1 with toks := ⟨.variable, x⟩ :: rparen :: (point d ++ rest) } = .ok (.var i, [], s2) := by
    unfold element
    rw [pop_cons (by rfl)]
    simp only [g1]
  rw [if_neg (by decide), he]
  simp only
  rw [expect_ok (k := .rparen) (t := rparen) (rest := point d ++ rest) (by rw [g2]) rfl]
  cases d with
  | true =>
    refine ⟨{ s2 with toks := rest }, num s2.names, ?_, rfl, hn⟩
    simp only [Except.map]
    rw [pop_cons (t := dot) (r := rest) rfl, if_pos (by rfl), hm, hx]
  | false =>
    refine ⟨{ s2 with toks := rest }, num s2.names, ?_, rfl, hn⟩
    simp only [Except.map]
    rw [if_neg, hm, hx]
    · rfl
    match rest, hd with
    | [], _ => nofun
    | t :: r, hd => exact hd t rfl

/-- C83: so a text has one meaning only. -/
theorem C83_unambiguous_partial {pre : List (Text × Text)} {c c' : SCond} {ts : List Tok} (h : Derives pre .or c ts) (h' : Derives pre .or c' ts) :
    ∃ num : Text → Nat, (∀ x ∈ c.vars ++ c'.vars, ∀ y ∈ c.vars ++ c'.vars, num x = num y → x = y) ∧ c.meaning pre num = c'.meaning pre num := by
  have hs : Stop 0 [] := nofun
  have hi : Inv ⟨ts ++ [], [], 0⟩ := ⟨(fun _ _ h => by cases h), (fun _ _ _ h => by cases h)⟩
  obtain ⟨a, s, h1, _, h3, h4⟩ := Motive.or (derives h) (Nat.lt_succ_self _) ⟨ts ++ [], [], 0⟩ [] rfl hs
  obtain ⟨a', s', g1, _, g3, g4⟩ := Motive.or (derives h') (Nat.lt_succ_self _) ⟨ts ++ [], [], 0⟩ [] rfl hs
  rw [h1] at g1
  cases g1
  have hboth : Reads ⟨ts ++ [], [], 0⟩ s (c.vars ++ c'.vars) := ⟨h3.ext, h3.inv, (by
    intro x hx
    rcases List.mem_append.1 hx with hx | hx
    · exact h3.declared x hx
    · exact g3.declared x hx), fun p hp => (h3.only p hp).imp id fun h => List.mem_append_left _ h, h3.nodup⟩
  exact ⟨num s.names, (Numbered.of hboth hi).distinct, by rw [← h4 _ (Ext.refl _), ← g4 _ (Ext.refl _)]⟩

/-- C83: the prefixes that a query declares are read as written. -/
theorem C83_prologue {ws : List Text} {l : List (Text × Text)} {rest : List Tok} {text : Text} (hlen : ws.length = l.length)
    (hws : ∀ w ∈ ws, w.map lower = [112, 114, 101, 102, 105, 120]) (hl : ∀ p ∈ l, 92 ∉ p.2) (hd : (l.map (·.1)).Nodup)
    (ht : Written text (prefixToks ws l ++ rest)) (hr : ∀ t ∈ rest.head?, t.kind = .identifier → t.raw.map lower ≠ [112, 114, 101, 102, 105, 120]) :
    readPrologue text = .ok (l, ⟨rest, [], 0⟩) ∧ ∀ p ∈ l, find l p.1 = some p.2 := by
  have hfind : ∀ (l : List (Text × Text)), (l.map (·.1)).Nodup → ∀ p ∈ l, find l p.1 = some p.2 := by
    intro l
    induction l with
    | nil => intro _ p hp; cases hp
    | cons a l ih =>
      intro hd p hp
      rw [List.map_cons, List.nodup_cons] at hd
      rcases List.mem_cons.1 hp with rfl | hp
      · simp [find]
      · have hne : a.1 ≠ p.1 := fun e => hd.1 (e ▸ List.mem_map_of_mem hp)
        rw [← ih hd.2 p hp]
        simp [find, hne]
  have hnone : ∀ (l : List (Text × Text)) (n : Text), n ∉ l.map (·.1) → (find l n).isSome = false := by
    intro l n hn
    simp only [find, Option.isSome_map, Option.isSome_eq_false_iff, Option.isNone_iff_eq_none, List.find?_eq_none]
    intro p hp e
    exact hn (List.mem_map.2 ⟨p, hp, by simpa using e⟩)
  have key : ∀ (l : List (Text × Text)) (ws : List Text) (acc : List (Text × Text)) (n : Nat), ws.length = l.length →
      (∀ w ∈ ws, w.map lower = [112, 114, 101, 102, 105, 120]) → (∀ p ∈ l, 92 ∉ p.2) → ((acc ++ l).map (·.1)).Nodup → l.length < n →
      prologue n acc ⟨prefixToks ws l ++ rest, [], 0⟩ = .ok (acc ++ l, ⟨rest, [], 0⟩) := by
    intro l
    induction l with
    | nil =>
      intro ws acc n _ _ _ _ hn
      cases n with
      | zero => omega
      | succ n =>
        rw [prologue, if_neg]
        · simp [prefixToks]
        · intro ⟨h1, h2⟩
          match rest, hr with
          | [], _ => simp [prefixToks, pop] at h1
          | t :: r, hr =>
            simp only [prefixToks, List.zip_nil_right, List.flatMap_nil, List.nil_append, pop] at h1 h2
            exact hr t rfl h1 (by simpa [isKeyword, prologue.kPrefix] using h2)
    | cons p l ih =>
      intro ws acc n hlen hws hl hd hn
      match ws, hlen, hws with
      | w :: ws, hlen, hws =>
        cases n with
        | zero => omega
        | succ n =>
          have hw := hws w (List.mem_cons_self ..)
          have hs : prefixToks (w :: ws) (p :: l) ++ rest = ident w :: ident p.1 :: colon :: ⟨.iri, p.2⟩ :: (prefixToks ws l ++ rest) := by
            simp [prefixToks]
          have hdash : ∀ k (s : St) (r : List Tok), s.toks = colon :: r → prologue.dashes (k + 1) (ident p.1).raw s = (p.1, s) := by
            intro k s r hs
            rw [prologue.dashes, pop_cons hs, if_neg]
            · rfl
            intro h; exact h.1 rfl
          rw [hs, prologue, pop_cons (by rfl)]
          simp only
          rw [if_pos ⟨rfl, by simp [isKeyword, ident, hw, prologue.kPrefix]⟩, pop_cons (by rfl)]
          simp only
          rw [if_neg (by simp [ident]), hdash _ _ _ rfl]
          simp only
          rw [pop_cons (by rfl)]
          simp only
          rw [if_neg (by decide), pop_cons (by rfl)]
          simp only
          have hacc : p.1 ∉ acc.map (·.1) := by
            rw [List.map_append, List.nodup_append] at hd
            intro hm
            exact hd.2.2 _ hm _ (List.mem_cons_self ..) rfl
          rw [if_neg (by simp), if_neg (by rw [hnone acc _ hacc]; decide), unescape_plain _ (hl p (List.mem_cons_self ..))]
          have := ih ws (acc ++ [p]) n (by simpa using hlen) (fun w hw => hws w (List.mem_cons_of_mem _ hw)) (fun q hq => hl q (List.mem_cons_of_mem _ hq))
            (by simpa using hd) (by simpa using hn)
          rw [List.append_assoc] at this
          exact this
  refine ⟨?_, hfind l hd⟩
  unfold readPrologue
  rw [lex_spec ht]
  refine key l ws [] _ hlen hws hl hd ?_
  have : ∀ (l : List (Text × Text)) (ws : List Text), ws.length = l.length → l.length ≤ (prefixToks ws l).length := by
    intro l
    induction l with
    | nil => intro _ _; simp
    | cons p l ih =>
      intro ws h
      match ws, h with
      | w :: ws, h =>
        have := ih ws (by simpa using h)
        simp only [prefixToks, List.zip_cons_cons, List.flatMap_cons, List.length_append, List.length_cons, List.length_nil] at this ⊢
        omega
  have := this l ws hlen
  rw [List.length_append]; omega

section Examples

def v (x : String) : SCond := .elem (.var (bytes x))

/-- `?x + 2 * ?y < 10 && !bound(?z) || regex(?n, "a") ` -/
def cond1 : SCond :=
  .bin .or (.bin .and (.bin .lt (.bin .add (v "x") (.bin .mul (.int (bytes "2")) (v "y"))) (.int (bytes "10"))) (.un .not (.bound (bytes "z"))))
    (.regex (v "n") (.elem (.lit (bytes "a"))) .nil)

def var1 (x : String) : Tok := ⟨.variable, bytes x⟩
def int1 (x : String) : Tok := ⟨.integer, bytes x⟩

def toks1 : List Tok :=
  [lparen, var1 "x", ⟨.plus, [43]⟩, int1 "2", ⟨.mul, [42]⟩, var1 "y", ⟨.less, []⟩, int1 "10", andTok, ⟨.not, [33]⟩, ident (bytes "Bound"), lparen, var1 "z",
   rparen, orTok, ident (bytes "REGEX"), lparen, var1 "n", comma, ⟨.string, bytes "a"⟩, rparen, rparen]

theorem derivesVar (pre : List (Text × Text)) (x : String) : Derives pre .primary (v x) [var1 x] := .elem (e := .var (bytes x)) trivial nofun nofun

theorem or_of {pre : List (Text × Text)} {c : SCond} {ts : List Tok} (h : Derives pre .primary c ts) : Derives pre .or c ts :=
  .orUp (.andUp (.relUp (.addUp (.mulUp (.unaryUp h)))))

theorem find_one {a x : Text} {n i : Nat} (h : find [(a, n)] x = some i) : x = a ∧ i = n := by
  unfold find at h
  simp only [List.find?_cons, List.find?_nil] at h
  cases e : (a == x) with
  | false => rw [e] at h; cases h
  | true => rw [e] at h; cases h; exact ⟨(by simpa using e : a = x).symm, rfl⟩

theorem cond1_derives : Constraint pre1 cond1 toks1 := by
  refine .brackets (s := (([var1 "x"] ++ ⟨.plus, [43]⟩ :: ([int1 "2"] ++ ⟨.mul, [42]⟩ :: [var1 "y"])) ++ ⟨.less, []⟩ :: [int1 "10"]) ++
    andTok :: [⟨.not, [33]⟩, ident (bytes "Bound"), lparen, var1 "z", rparen] ++ orTok :: [ident (bytes "REGEX"), lparen, var1 "n", comma, ⟨.string, bytes "a"⟩, rparen]) ?_
  refine .or (.orUp (.and (.andUp (.rel (.add (.addUp (.mulUp (.unaryUp (derivesVar _ _)))) (.mul (.mulUp (.unaryUp .int)) (.unaryUp (derivesVar _ _)) (by decide)) (by decide))
    (.addUp (.mulUp (.unaryUp .int))) (by decide))) (.relUp (.addUp (.mulUp (.unary (.bound (by decide) (by decide)) (by decide)))))))
    (.andUp (.relUp (.addUp (.mulUp (.unaryUp (.regex2 (s := [var1 "n"]) (t := [⟨.string, bytes "a"⟩]) (by decide) (by decide) (or_of (derivesVar _ _))
      (or_of (.elem (e := .lit (bytes "a")) (by decide) (by decide) nofun))))))))

example := C83_filter_partial (d := true) (rest := [rcurly]) (names := [(bytes "y", 0)]) (count := 3) cond1_derives
  (written_print (toks1 ++ (point true ++ [rcurly])) (by decide)) (by rintro t ⟨⟩; decide) (by rintro t ⟨⟩; decide)
  (fun x i h => by have := find_one h; omega) (fun x y i h k => (find_one h).1.trans (find_one k).1.symm)

/-- The same without blanks. -/
example : (readFilter pre1 [] 0 (bytes "(?x+2*?y<10&&!bound(?z)||regex(?n,'a'))")).map (·.1) =
    .ok (.bin .or (.bin .and (.bin .lt (.bin .add (.var 0) (.bin .mul (.lit (bytes "2") (.type xsdInteger)) (.var 1))) (.lit (bytes "10") (.type xsdInteger)))
      (.un .not (.bound 2))) (.regex (.var 3) (.lit (bytes "a") .none) .nil)) := by decide +kernel

example : Derives pre1 .or (.bin .sub (.bin .sub (v "a") (v "b")) (v "c")) [var1 "a", ⟨.minus, [45]⟩, var1 "b", ⟨.minus, [45]⟩, var1 "c"] :=
  .orUp (.andUp (.relUp (.add (s := [var1 "a", ⟨.minus, [45]⟩, var1 "b"]) (.add (s := [var1 "a"]) (.addUp (.mulUp (.unaryUp (derivesVar _ _)))) (.mulUp (.unaryUp (derivesVar _ _)))
    (by decide)) (.mulUp (.unaryUp (derivesVar _ _))) (by decide))))

example := C83_bind_partial (pre := pre1) (d := false) (x := bytes "s") (w := bytes "AS") (rest := []) (names := []) (count := 0) (or_of (derivesVar pre1 "x")) (by decide)
  (written_print _ (by decide)) (fun _ h => by cases h) (fun _ _ h => by cases h) (fun _ _ _ h => by cases h)

example := C83_unambiguous_partial (or_of (derivesVar pre1 "x")) (or_of (derivesVar pre1 "x"))

example := C83_prologue (ws := [bytes "PREFIX", bytes "prefix"]) (l := pre1) (rest := [ident (bytes "SELECT")]) (by decide) (by decide) (by decide) (by decide)
  (written_print _ (by decide)) (by rintro t ⟨⟩; decide)

end Examples

section Violations

/-- The condition that is read from a text. -/
def readCond (text : String) : Except Err Cond := (readFilter pre1 [] 0 (bytes text)).map (·.1)

/-- `IN` is an error. -/
theorem C83_in_violated : readCond "(?x IN (e:a, e:b))" = .error .syntax ∧ ∃ c, readCond "(?x = e:a || ?x = e:b)" = .ok c := ⟨by decide +kernel, _, by rfl⟩

/-- `NOT IN` with an empty list is left out: `?x NOT IN ()`, which is true, is read as `?x`. -/
theorem C83_not_in_empty_violated : readCond "(?x NOT IN ())" = readCond "(?x)" := by decide +kernel

/-- `NOT IN` keeps the texts of its values only: an IRI and a string are the same, all variables are, and a number is an error. -/
theorem C83_not_in_violated : readCond "(?x NOT IN (<a>))" = readCond "(?x NOT IN ('a'))" ∧ readCond "(?x NOT IN (?y))" = readCond "(?x NOT IN (''))"
    ∧ readCond "(?x NOT IN (1))" = .error .syntax := by decide +kernel

/-- EXISTS is an error. -/
theorem C83_exists_violated : readCond "EXISTS { ?x e:p ?y }" = .error .syntax := by decide +kernel

/-- The empty prefix cannot be declared and cannot be used. -/
theorem C83_empty_prefix_violated : (readPrologue (bytes "PREFIX : <http://e/>")).map (·.1) = .error .syntax ∧ readCond "(?x = :a)" = .error .syntax := by decide +kernel

/-- Conversions to integers and numbers with an exponent are errors. -/
theorem C83_numbers_violated : readCond "(xsd:integer(?x) = 1)" = .error .syntax ∧ readCond "(?x < 1e5)" = .error .syntax
    ∧ ∃ c, readCond "(xsd:decimal(?x) = 1)" = .ok c := ⟨by decide +kernel, by decide +kernel, _, by rfl⟩

/-- With a prefix that has the name of a function, the function cannot be called. -/
theorem C83_function_prefix_violated : (readFilter [(bytes "str", bytes "http://s/")] [] 0 (bytes "(str(?x) = 'a')")).map (·.1) = .error .syntax
    ∧ ∃ c, readCond "(str(?x) = 'a')" = .ok c := ⟨by decide +kernel, _, by rfl⟩

/-- Comparisons in a row are not rejected. -/
theorem C83_comparisons_violated : readCond "(?x = ?y = ?z)" = .ok (.bin .eq (.bin .eq (.var 0) (.var 1)) (.var 2)) := by decide +kernel

end Violations

end Trident.Sparql.Parse
