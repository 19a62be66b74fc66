import Verif.Sparql.ParserMain
import Verif.Sparql.LexerProofs
/-!
# C80: the pattern of a query is read as written

`Spec.Pat` is a group graph pattern as a user writes it, and `Spec.Pat.meaning` says what it consists of (Verif/Sparql/ParserSpec.lean).  `Lex.Written` says how
tokens are written in a text (Verif/Sparql/LexerSpec.lean).
-/
namespace Trident.Sparql.Parse

open Lex Spec

/-- The text of a string. -/
def bytes (s : String) : Text := s.toList.map Char.toNat

/-- C80: the tokens of a text are those that were written, whatever white space and comments are between them. -/
theorem C80_tokens {text : Text} {toks : List Tok} (h : Written text toks) : lex text = toks := lex_spec h

/-- C80: a WHERE part is read as written.  `names` are the variables before it, such as those after SELECT.  The result has the triples, optional parts, unions,
subtracted parts, values and conditions of the text, each in their order; equal names are equal variables, different names are different variables, and those
named before keep their numbers.  Missing: BIND, subqueries, blank nodes; FILTER in braces about a variable that the triples in the braces do not bind (`C80_nested_filter_violated`); the order between the
kinds of parts is not kept (`C80_order_violated`). -/
theorem C80_where_partial {pre : List (Text × Text)} {K : Spelling} {p : Pat} {text w : Text} {rest : List Tok} {names : List (Text × Nat)} {count : Nat}
    (hp : p.Ok pre false) (hw : w.map lower = kWhere)
    (ht : Written text (ident w :: lcurly :: (p.toks K ++ rcurly :: rest)) ∨ Written text (lcurly :: (p.toks K ++ rcurly :: rest)))
    (hlt : ∀ x i, find names x = some i → i < count) (hinj : ∀ x y i, find names x = some i → find names y = some i → x = y) :
    ∃ (s : St) (num : Text → Nat), readWhere pre names count text = .ok (p.meaning pre num, s) ∧ s.toks = rest
      ∧ (∀ x ∈ p.vars, ∀ y ∈ p.vars, num x = num y → x = y)
      ∧ (∀ x i, find names x = some i → num x = i)
      ∧ ∀ x ∈ p.vars, find s.names x = some (num x) := by
  have fin : ∀ (n : Nat) (s0 : St), (p.toks K).length < n → s0.toks = p.toks K ++ rcurly :: rest → s0.names = names → s0.count = count →
      ∃ (s : St) (num : Text → Nat), group pre n Group.empty s0 = .ok (p.meaning pre num, s) ∧ s.toks = rest
      ∧ (∀ x ∈ p.vars, ∀ y ∈ p.vars, num x = num y → x = y)
      ∧ (∀ x i, find names x = some i → num x = i)
      ∧ ∀ x ∈ p.vars, find s.names x = some (num x) := by
    intro n s0 hn hs hnames hcount
    obtain ⟨g, s, h1, h2, h3, h4⟩ := inner ((main K p).1 hp) hn hs
    have hinv : Inv s := h3.inv ⟨by rw [hnames, hcount]; exact hlt, by rw [hnames]; exact hinj⟩
    have hfind : ∀ x ∈ p.vars, find s.names x = some (num s.names x) := by
      intro x hx
      obtain ⟨i, hi⟩ := Option.isSome_iff_exists.1 (h3.declared x hx)
      unfold num
      rw [hi]; rfl
    refine ⟨s, num s.names, ?_, h2, ?_, ?_, hfind⟩
    · rw [h1, h4 s.names (Ext.refl _)]
    · intro x hx y hy e
      exact hinv.2 x y _ (hfind x hx) (e ▸ hfind y hy)
    · intro x i hi
      unfold num
      rw [h3.ext x i (by rw [hnames]; exact hi)]; rfl
  have hkw : (ident w).kind = .identifier ∧ isKeyword (ident w) kWhere = true := ⟨rfl, by rw [isKeyword_ident hw]; decide⟩
  unfold readWhere parseWhere
  rcases ht with ht | ht
  · rw [lex_spec ht, pop_cons (by rfl)]
    simp only
    rw [if_neg (by rw [hkw.1]; decide), if_pos hkw, pop_cons (by rfl)]
    simp only
    rw [if_pos (by rfl)]
    exact fin _ _ (by simp; omega) rfl rfl rfl
  · rw [lex_spec ht, pop_cons (by rfl)]
    simp only
    rw [if_pos (by rfl)]
    exact fin _ _ (by simp; omega) rfl rfl rfl

/-- C80: so a pattern can be written down: its tokens with blanks between them are read as the pattern. -/
theorem C80_printed_partial {pre : List (Text × Text)} {K : Spelling} {p : Pat} {names : List (Text × Nat)} {count : Nat}
    (hp : p.Ok pre false) (hw : ∀ t ∈ p.toks K, writable t = true)
    (hlt : ∀ x i, find names x = some i → i < count) (hinj : ∀ x y i, find names x = some i → find names y = some i → x = y) :
    ∃ (s : St) (num : Text → Nat), readWhere pre names count (printAll (lcurly :: (p.toks K ++ [rcurly]))) = .ok (p.meaning pre num, s) ∧ s.toks = []
      ∧ (∀ x ∈ p.vars, ∀ y ∈ p.vars, num x = num y → x = y)
      ∧ (∀ x i, find names x = some i → num x = i)
      ∧ ∀ x ∈ p.vars, find s.names x = some (num x) := by
  refine C80_where_partial (w := kWhere) hp (by decide) (.inr (written_print _ ?_)) hlt hinj
  intro t ht
  rcases List.mem_cons.1 ht with rfl | ht
  · decide
  · rcases List.mem_append.1 ht with ht | ht
    · exact hw t ht
    · rw [List.mem_singleton.1 ht]; decide

section Examples

def pre1 : List (Text × Text) := [(bytes "e", bytes "http://e/"), (bytes "foaf", bytes "http://f/")]

/-- Words in capital letters. -/
def caps : Spelling where
  optional := bytes "OPTIONAL"
  union := bytes "UNION"
  minus := bytes "Minus"
  values := bytes "VALUES"
  filter := bytes "FILTER"
  hoptional := by decide
  hunion := by decide
  hminus := by decide
  hvalues := by decide
  hfilter := by decide

instance (pre : List (Text × Text)) (e : SElem) : Decidable (e.Ok pre) := by
  cases e <;> unfold SElem.Ok <;> infer_instance

instance (tl : Bool) (e : SElem) : Decidable (Start tl e) :=
  decidable_of_iff (∀ t ∈ e.toks.head?.toList, t.raw.map lower ∉ words ∧ (tl = true → t.kind ≠ .identifier)) (by unfold Start; simp)

instance decMergeableIn (B : List Text) : (p : Pat) → Decidable (p.MergeableIn B)
  | .nil => .isTrue trivial
  | .block _ _ _ _ _ r => decMergeableIn B r
  | .optional _ r => decMergeableIn B r
  | .union _ _ r => decMergeableIn B r
  | .alt _ _ => .isFalse id
  | .minus _ _ => .isFalse id
  | .values _ _ _ => .isFalse id
  | .filter c _ _ r => @instDecidableAnd (∀ x ∈ c.vars, x ∈ B) _ _ (decMergeableIn B r)
  | .nested g r => @instDecidableAnd _ _ (decMergeableIn g.bound g) (decMergeableIn B r)

instance (p : Pat) : Decidable p.Mergeable := decMergeableIn p.bound p

mutual
/-- Whether a pattern without FILTER is well formed can be computed. -/
noncomputable def decOk (pre : List (Text × Text)) : (tl : Bool) → (p : Pat) → Decidable (p.Ok pre tl)
  | _, .nil => .isTrue (by rw [Pat.Ok]; trivial)
  | tl, .block s p o more d rest =>
    have := decOk pre (!d) rest
    decidable_of_iff (s.Ok pre ∧ p.Ok pre ∧ o.Ok pre ∧ (∀ x ∈ more, (∀ p ∈ x.1.toList, p.Ok pre) ∧ x.2.Ok pre) ∧ Start tl s ∧ rest.Ok pre (!d))
      (by rw [Pat.Ok]; simp)
  | tl, .optional g rest =>
    have := decOk pre false g
    have := decOk pre tl rest
    decidable_of_iff (g.Ok pre false ∧ rest.Ok pre tl) (by rw [Pat.Ok])
  | _, .union g alts rest =>
    have := decOk pre false g
    have := decAlts pre alts
    have := decOk pre false rest
    have : Decidable (∃ g' r, alts = .alt g' r) := match alts with
      | .alt g' r => .isTrue ⟨g', r, rfl⟩
      | .nil | .block .. | .optional .. | .union .. | .minus .. | .values .. | .filter .. | .nested .. => .isFalse nofun
    decidable_of_iff (g.Ok pre false ∧ alts.AltsOk pre ∧ (∃ g' r, alts = .alt g' r) ∧ rest.Ok pre false) (by rw [Pat.Ok])
  | _, .alt _ _ => .isFalse (by rw [Pat.Ok]; exact id)
  | tl, .minus g rest =>
    have := decOk pre false g
    have := decOk pre tl rest
    decidable_of_iff (g.Ok pre false ∧ rest.Ok pre tl) (by rw [Pat.Ok])
  | tl, .values vars rows rest =>
    have := decOk pre true rest
    decidable_of_iff (tl = true ∧ (∀ r ∈ rows, r.length = vars.length ∧ ∀ e ∈ r, e.Ok pre) ∧ rest.Ok pre true) (by rw [Pat.Ok])
  | _, .filter .. => Classical.propDecidable _
  | _, .nested g rest =>
    have := decOk pre false g
    have := decOk pre false rest
    decidable_of_iff (g.Ok pre false ∧ g.Mergeable ∧ rest.Ok pre false) (by rw [Pat.Ok])
noncomputable def decAlts (pre : List (Text × Text)) : (p : Pat) → Decidable (p.AltsOk pre)
  | .nil => .isTrue (by rw [Pat.AltsOk]; trivial)
  | .alt g rest =>
    have := decOk pre false g
    have := decAlts pre rest
    decidable_of_iff (g.Ok pre false ∧ rest.AltsOk pre) (by rw [Pat.AltsOk])
  | .block .. | .optional .. | .union .. | .minus .. | .values .. | .filter .. | .nested .. => .isFalse (by rw [Pat.AltsOk]; exact id; all_goals (intros; contradiction))
end

noncomputable instance (pre : List (Text × Text)) (tl : Bool) (p : Pat) : Decidable (p.Ok pre tl) := decOk pre tl p

/-- `?x a <http://c> ; foaf:name "n"@en , ?n VALUES (?x ?n) { (e:i "v") (e:j "w"^^<t>) } . OPTIONAL { ?x e:p ?y } { ?x e:q ?z . } UNION { ?z e:q ?x } UNION { }
MINUS { ?n e:p "k" } { ?z e:r ?x }` -/
def pat1 : Pat :=
  .block (.var (bytes "x")) .a (.iri (bytes "http://c")) [(some (.name (bytes "foaf") (bytes "name")), .lang (bytes "n") (bytes "en")), (none, .var (bytes "n"))] false
    (.values [bytes "x", bytes "n"] [[.name (bytes "e") (bytes "i"), .lit (bytes "v")], [.name (bytes "e") (bytes "j"), .typed (bytes "w") (bytes "t")]]
      (.block (.var (bytes "n")) (.name (bytes "e") (bytes "p")) (.var (bytes "x")) [] true
        (.optional (.block (.var (bytes "x")) (.name (bytes "e") (bytes "p")) (.var (bytes "y")) [] false .nil)
          (.union (.block (.var (bytes "x")) (.name (bytes "e") (bytes "q")) (.var (bytes "z")) [] true .nil)
            (.alt (.block (.var (bytes "z")) (.name (bytes "e") (bytes "q")) (.var (bytes "x")) [] false .nil) (.alt .nil .nil))
            (.minus (.block (.var (bytes "n")) (.name (bytes "e") (bytes "p")) (.lit (bytes "k")) [] false .nil)
              (.nested (.block (.var (bytes "z")) (.name (bytes "e") (bytes "r")) (.var (bytes "x")) [] false .nil) .nil))))))

theorem pat1_ok : pat1.Ok pre1 false := by decide +kernel

theorem pat1_writable : ∀ t ∈ pat1.toks caps, writable t = true := by decide +kernel

/-- `?n` was named before the pattern. -/
theorem names1 : (∀ x i, find [(bytes "n", 4)] x = some i → i < 7) ∧ ∀ x y i, find [(bytes "n", 4)] x = some i → find [(bytes "n", 4)] y = some i → x = y := by
  have h : ∀ x i, find [(bytes "n", 4)] x = some i → x = bytes "n" ∧ i = 4 := by
    intro x i e
    unfold find at e
    rw [List.find?_cons] at e
    split at e
    · rename_i h
      exact ⟨(beq_iff_eq.1 h).symm, by cases e; rfl⟩
    · cases e
  exact ⟨fun x i e => by rw [(h x i e).2]; decide, fun x y i e e' => by rw [(h x i e).1, (h y i e').1]⟩

/-- The hypotheses of `C80_printed_partial` hold for a pattern with every kind of part. -/
example := C80_printed_partial (K := caps) (p := pat1) pat1_ok pat1_writable names1.1 names1.2

/-- `?x e:p ?y FILTER (?y != e:a) . OPTIONAL { ?y e:q ?z FILTER bound(?x) }` -/
def pat3 : Pat :=
  .block (.var (bytes "x")) (.name (bytes "e") (bytes "p")) (.var (bytes "y")) [] false
    (.filter (.bin .ne (.elem (.var (bytes "y"))) (.elem (.name (bytes "e") (bytes "a"))))
      (lparen :: (([⟨.variable, bytes "y"⟩] ++ ⟨.notEqual, [33, 61]⟩ :: [ident (bytes "e"), colon, ident (bytes "a")]) ++ [rparen])) true
      (.optional (.block (.var (bytes "y")) (.name (bytes "e") (bytes "q")) (.var (bytes "z")) [] false
        (.filter (.bound (bytes "x")) [ident (bytes "bound"), lparen, ⟨.variable, bytes "x"⟩, rparen] false .nil)) .nil))

theorem pat3_ok : pat3.Ok pre1 false := by
  have h1 : Derives pre1 .primary (.elem (.var (bytes "y"))) [⟨.variable, bytes "y"⟩] := .elem (e := .var (bytes "y")) trivial nofun nofun
  have h2 : Derives pre1 .primary (.elem (.name (bytes "e") (bytes "a"))) [ident (bytes "e"), colon, ident (bytes "a")] :=
    .elem (e := .name (bytes "e") (bytes "a")) (by decide +kernel) nofun (fun l h => by cases h)
  have up : ∀ {c : SCond} {ts : List Tok}, Derives pre1 .primary c ts → Derives pre1 .add c ts := fun h => .addUp (.mulUp (.unaryUp h))
  simp only [pat3, Pat.Ok]
  refine ⟨by decide +kernel, by decide +kernel, by decide +kernel, by simp, by decide +kernel, ?_, ⟨by decide +kernel, by decide +kernel, by decide +kernel, by simp, by decide +kernel, ?_, trivial⟩, trivial⟩
  · exact .brackets (.orUp (.andUp (.rel (up h1) (up h2) (by decide))))
  · exact .function (.bound (by decide) (by decide +kernel))

/-- The hypotheses of `C80_printed_partial` hold for a pattern with conditions. -/
example := C80_printed_partial (K := caps) (p := pat3) pat3_ok (by decide +kernel) names1.1 names1.2

/-- `?x e:p ?z { ?x e:p ?y FILTER (?y != e:a) . { OPTIONAL { ?y e:q ?z } } }` -/
def patBraces : Pat :=
  .block (.var (bytes "x")) (.name (bytes "e") (bytes "p")) (.var (bytes "z")) [] false
    (.nested (.block (.var (bytes "x")) (.name (bytes "e") (bytes "p")) (.var (bytes "y")) [] false
      (.filter (.bin .ne (.elem (.var (bytes "y"))) (.elem (.name (bytes "e") (bytes "a"))))
        (lparen :: (([⟨.variable, bytes "y"⟩] ++ ⟨.notEqual, [33, 61]⟩ :: [ident (bytes "e"), colon, ident (bytes "a")]) ++ [rparen])) true
        (.nested (.optional (.block (.var (bytes "y")) (.name (bytes "e") (bytes "q")) (.var (bytes "z")) [] false .nil) .nil) .nil))) .nil)

theorem patBraces_ok : patBraces.Ok pre1 false := by
  have h1 : Derives pre1 .primary (.elem (.var (bytes "y"))) [⟨.variable, bytes "y"⟩] := .elem (e := .var (bytes "y")) trivial nofun nofun
  have h2 : Derives pre1 .primary (.elem (.name (bytes "e") (bytes "a"))) [ident (bytes "e"), colon, ident (bytes "a")] :=
    .elem (e := .name (bytes "e") (bytes "a")) (by decide +kernel) nofun (fun l h => by cases h)
  have up : ∀ {c : SCond} {ts : List Tok}, Derives pre1 .primary c ts → Derives pre1 .add c ts := fun h => .addUp (.mulUp (.unaryUp h))
  simp only [patBraces, Pat.Ok]
  refine ⟨by decide +kernel, by decide +kernel, by decide +kernel, by simp, by decide +kernel, ⟨by decide +kernel, by decide +kernel, by decide +kernel, by simp, by decide +kernel, ?_,
    ⟨⟨by decide +kernel, by decide +kernel, by decide +kernel, by simp, by decide +kernel, trivial⟩, trivial⟩, by decide +kernel, trivial⟩, by decide +kernel, trivial⟩
  exact .brackets (.orUp (.andUp (.rel (up h1) (up h2) (by decide))))

/-- The hypotheses of `C80_printed_partial` hold for a condition in braces. -/
example := C80_printed_partial (K := caps) (p := patBraces) patBraces_ok (by decide +kernel) names1.1 names1.2

/-- A text with a comment, tabs, and a point at the end of a name:
`where{?x a<c>.#?x`, end of line, tab, `e:q e:p.x'v'}` has six tokens of the first triple and no comment. -/
def text2 : Text := bytes "where{?x a<c>.#?x\n\t$x e:p'v'}"

def pat2 : Pat := .block (.var (bytes "x")) .a (.iri (bytes "c")) [] true
  (.block (.var (bytes "x")) (.name (bytes "e") (bytes "p")) (.lit (bytes "v")) [] false .nil)

theorem text2_written : Written text2 (ident kWhere :: lcurly :: (pat2.toks caps ++ [rcurly])) := by
  have word : ∀ {c : Nat} {x rest : Text} {ts : List Tok}, letter c = true → (∀ d ∈ x, wordChar d = true) → (c :: x).getLast? ≠ some 46 →
      (∀ c ∈ rest.head?, wordChar c = false) → Written rest ts → Written ((c :: x) ++ rest) (⟨.identifier, c :: x⟩ :: ts) :=
    fun h1 h2 h3 h4 h5 => .cons (g := []) .nil (.word h1 h2 h3) (.inl h4) h5
  have var : ∀ {x rest : Text}, (rest.head?.all fun c => !nameChar c) = true → Follows ⟨.variable, x⟩ rest := by
    intro x rest h c hc
    simp only [Option.mem_def] at hc
    rw [hc] at h
    simpa using h
  have mark : ∀ {k : Kind} {c : Nat} {rest : Text} {ts : List Tok}, (k, c) ∈ marks → c ≠ 33 ∧ c ≠ 62 → Written rest ts → Written ([c] ++ rest) (⟨k, [c]⟩ :: ts) := by
    intro k c rest ts h1 hc h2
    refine .cons (g := []) .nil (.mark h1) ?_ h2
    simp only [marks, List.mem_cons, Prod.mk.injEq, List.not_mem_nil, or_false] at h1
    rcases h1 with ⟨rfl, rfl⟩ | ⟨rfl, rfl⟩ | ⟨rfl, rfl⟩ | ⟨rfl, rfl⟩ | ⟨rfl, rfl⟩ | ⟨rfl, rfl⟩ | ⟨rfl, rfl⟩ | ⟨rfl, rfl⟩ | ⟨rfl, rfl⟩ | ⟨rfl, rfl⟩ | ⟨rfl, rfl⟩
      | ⟨rfl, rfl⟩ | ⟨rfl, rfl⟩ | ⟨rfl, rfl⟩ | ⟨rfl, rfl⟩ | ⟨rfl, rfl⟩
    case inr.inr.inr.inr.inr.inr.inr.inr.inr.inr.inr.inr.inr.inr.inl => exact absurd rfl hc.1
    case inr.inr.inr.inr.inr.inr.inr.inr.inr.inr.inr.inr.inr.inr.inr => exact absurd rfl hc.2
    all_goals trivial
  refine word (c := 119) (x := bytes "here") (by decide) (by decide) (by decide) (by decide) ?_
  refine mark (by decide) (by decide) ?_
  refine .cons (g := []) (w := bytes "?x") .nil (.var (.inl rfl) (by decide)) (var (by decide +kernel)) ?_
  refine written_gap (by decide) (word (c := 97) (x := []) (by decide) (by decide) (by decide) (by decide) ?_)
  refine .cons (g := []) (w := bytes "<c>") .nil (.iri (v := bytes "c") (by decide)) trivial ?_
  refine mark (by decide) (by decide) ?_
  refine .cons (g := bytes "#?x\n\t") (w := bytes "$x") (.comment (t := bytes "?x") (by decide) (.inl rfl) (.space (by decide) .nil)) (.var (.inr rfl) (by decide))
    (var (by decide +kernel)) ?_
  refine written_gap (by decide) (word (c := 101) (x := []) (by decide) (by decide) (by decide) (by decide) ?_)
  refine mark (by decide) (by decide) ?_
  refine word (c := 112) (x := []) (by decide) (by decide) (by decide) (by decide) ?_
  refine .cons (g := []) (w := bytes "'v'") .nil (.string (q := 39) (v := bytes "v") (.inr rfl) (by decide)) trivial ?_
  exact mark (by decide) (by decide) (.nil .nil)

example := C80_where_partial (K := caps) (p := pat2) (pre := pre1) (names := []) (count := 0) (rest := []) (by decide +kernel) (by decide) (.inl text2_written)
  (fun _ _ h => by cases h) (fun _ _ _ h => by cases h)

end Examples

section Violations

deriving instance DecidableEq for Except

mutual
def decGroup : (a b : Group) → Decidable (a = b)
  | .mk p o u m v f, .mk p' o' u' m' v' f' =>
    have := decGroups o o'
    have := decUnions u u'
    have := decGroups m m'
    decidable_of_iff (p = p' ∧ o = o' ∧ u = u' ∧ m = m' ∧ v = v' ∧ f = f') (by simp)
def decGroups : (a b : List Group) → Decidable (a = b)
  | [], [] => .isTrue rfl
  | [], _ :: _ => .isFalse nofun
  | _ :: _, [] => .isFalse nofun
  | a :: l, b :: k =>
    have := decGroup a b
    have := decGroups l k
    decidable_of_iff (a = b ∧ l = k) (by simp)
def decUnions : (a b : List (List Group)) → Decidable (a = b)
  | [], [] => .isTrue rfl
  | [], _ :: _ => .isFalse nofun
  | _ :: _, [] => .isFalse nofun
  | a :: l, b :: k =>
    have := decGroups a b
    have := decUnions l k
    decidable_of_iff (a = b ∧ l = k) (by simp)
end

instance : DecidableEq Group := decGroup

/-- The group that is read from a text; `e:` is a declared prefix. -/
def read (text : String) : Except Err Group := (readWhere pre1 [] 0 (bytes text)).map (·.1)

/-- A blank node is one node in the whole group, but its label gets a new variable after each point. -/
theorem C80_blank_nodes_violated :
    read "{ _:b e:p ?x . _:b e:q ?y }" = .ok (.mk [(.var 0, .iri (bytes "http://e/p"), .var 1), (.var 2, .iri (bytes "http://e/q"), .var 3)] [] [] [] [] [])   := by decide +kernel

/-- MINUS and VALUES in braces within a group are lost. -/
theorem C80_nested_minus_violated : read "{ { ?x e:p ?y MINUS { ?x e:q ?y } } }" = read "{ ?x e:p ?y }"   := by decide +kernel
theorem C80_nested_values_violated : read "{ { ?x e:p ?y VALUES (?x) { (e:a) } } }" = read "{ ?x e:p ?y }"   := by decide +kernel

/-- A condition in braces is about the variables in these braces only, so `?x` has no value in it; it is read as a condition of the whole group. -/
theorem C80_nested_filter_violated : read "{ ?x e:p ?y { ?z e:q ?w FILTER(?x = ?z) } }" = read "{ ?x e:p ?y . ?z e:q ?w FILTER(?x = ?z) }"
    ∧ ∃ g, read "{ ?x e:p ?y { ?z e:q ?w FILTER(?x = ?z) } }" = .ok g := ⟨by decide +kernel, _, by rfl⟩

/-- After a triple and a condition, a point may not be followed by a subject that begins with a name. -/
theorem C80_filter_subject_violated : read "{ ?x e:p ?y FILTER(?y > ?x) . e:a e:q ?x }" = .error .syntax
    ∧ ∃ g, read "{ ?x e:p ?y . FILTER(?y > ?x) . e:a e:q ?x }" = .ok g := ⟨by decide +kernel, _, by rfl⟩

/-- Words of the language are not free for variables: `?select` or `?optional` as a subject cannot be used. -/
theorem C80_variable_word_violated : read "{ ?x e:p ?y . ?optional e:q ?y }" = .error .syntax ∧ ∃ g, read "{ ?x e:p ?y . ?option e:q ?y }" = .ok g := ⟨by decide +kernel, _, by rfl⟩

/-- VALUES is an error at the start of a group and after a point. -/
theorem C80_values_violated : read "{ VALUES (?x) { (e:a) } ?x e:p ?y }" = .error .syntax ∧ read "{ ?x e:p ?y . VALUES (?x) { (e:a) } }" = .error .syntax
    ∧ ∃ g, read "{ ?x e:p ?y VALUES (?x) { (e:a) } }" = .ok g := ⟨by decide +kernel, by decide +kernel, _, by rfl⟩

/-- Numbers and truth values are errors as objects, and so is a semicolon before the end. -/
theorem C80_numbers_violated : read "{ ?x e:p 5 }" = .error .syntax ∧ read "{ ?x e:p true }" = .error .syntax ∧ read "{ ?x e:p ?y ; }" = .error .syntax := by decide +kernel

/-- Escapes in a string are not decoded: `\n` is the letter n, and two backslashes are none. -/
theorem C80_escapes_violated : read "{ ?x e:p 'a\\nb' }" = read "{ ?x e:p 'anb' }" ∧ read "{ ?x e:p 'a\\\\b' }" = read "{ ?x e:p 'ab' }" := by decide +kernel

/-- A solution for `?x` and `?y`. -/
abbrev Sol := Option Nat × Option Nat

def compatible (a b : Option Nat) : Bool := a.isNone || b.isNone || a == b
def ok (a b : Sol) : Bool := compatible a.1 b.1 && compatible a.2 b.2
def both (a b : Sol) : Sol := (a.1 <|> b.1, a.2 <|> b.2)

/-- Join and LeftJoin of SPARQL. -/
def join (l r : List Sol) : List Sol := l.flatMap fun a => (r.filter (ok a)).map (both a)
def leftJoin (l r : List Sol) : List Sol := l.flatMap fun a => if (r.filter (ok a)).isEmpty then [a] else (r.filter (ok a)).map (both a)

/-- A group is evaluated from its start to its end, so OPTIONAL before a triple pattern differs from OPTIONAL after it; both are read as the same group. -/
theorem C80_order_violated :
    read "{ OPTIONAL { ?x e:p ?y } ?x e:q ?y }" = read "{ ?x e:q ?y OPTIONAL { ?x e:p ?y } }"
    ∧ ∃ p q : List Sol, join (leftJoin [(none, none)] p) q ≠ leftJoin (join [(none, none)] q) p :=
  ⟨by decide +kernel, [(some 1, some 2)], [(some 1, some 3)], by decide⟩

end Violations

end Trident.Sparql.Parse
