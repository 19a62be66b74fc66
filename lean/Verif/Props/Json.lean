import Verif.Http.JsonRead
/-
C90: what is put into a `JSON` object is what the text of it stands for.
C91: what `JSON::read` returns for a text that was written is what was written.

The specification is Http/JsonSpec.lean: JSON texts and what they stand for, after RFC 8259.  `make` is the sequence of calls that puts a document into an object.
-/
namespace Trident.Http
open Spec

/-- C90, for the documents that the class can hold: the calls and `write` do not fail, and the text stands for the document, and for nothing else.  Missing: empty arrays, arrays
with texts and other elements. -/
theorem C90_write_partial {d : Doc} (h : Holds d) :
    ∃ j t d', make d = some j ∧ write j = some t ∧ IsJson t d' ∧ Same d d' ∧ ∀ d'', IsJson t d'' → d'' = d' := by
  obtain ⟨j, t, hm, hw, hs⟩ := holds_good h
  exact ⟨j, t, meaning j, hm, hw, write_isJson hw, hs, fun d'' h' => IsJson.det h' (write_isJson hw)⟩

/-- Whatever was called: a text that is written is JSON. -/
theorem C90_always_json {j : Json} {t : Text} (h : write j = some t) : ∃ d, IsJson t d := ⟨_, write_isJson h⟩

/-- The result of a query about Rome, with a quote and a line break. -/
def sample : Doc := .obj [(ascii "head", .obj [(ascii "vars", .arr [.str (ascii "x"), .str (ascii "y")])]),
  (ascii "results", .obj [(ascii "bindings", .arr [.obj [(ascii "x", .obj [(ascii "value", .str (ascii "\"Rome\"\n")), (ascii "type", .str (ascii "literal"))])], .obj []])])]

theorem sample_readable : Readable sample := by
  refine .obj (by decide) ?_ ?_ ?_
  · intro k d hm; simp at hm; rcases hm with ⟨rfl, _⟩ | ⟨rfl, _⟩ <;> decide
  · intro k s hm; simp at hm
  · intro k d hm _
    simp at hm
    rcases hm with ⟨_, rfl⟩ | ⟨_, rfl⟩
    · refine .obj (by decide) (fun k d hm => by simp at hm; rw [hm.1]; decide) (fun k s hm => by simp at hm) (fun k d hm _ => ?_)
      simp at hm
      rw [hm.2]
      exact .texts (by simp) fun d hd => by
        simp at hd
        rcases hd with rfl | rfl
        · exact ⟨_, rfl, by decide⟩
        · exact ⟨_, rfl, by decide⟩
    · refine .obj (by decide) (fun k d hm => by simp at hm; rw [hm.1]; decide) (fun k s hm => by simp at hm) (fun k d hm _ => ?_)
      simp at hm
      rw [hm.2]
      refine .items (by simp) (fun d hd => by simp at hd; rcases hd with rfl | rfl <;> trivial) fun d hd => ?_
      simp at hd
      rcases hd with rfl | rfl
      · refine .obj (by decide) (fun k d hm => by simp at hm; rw [hm.1]; decide) (fun k s hm => by simp at hm) (fun k d hm _ => ?_)
        simp at hm
        rw [hm.2]
        refine .obj (by decide) (fun k d hm => by simp at hm; rcases hm with ⟨rfl, _⟩ | ⟨rfl, _⟩ <;> decide) (fun k s hm => ?_) (fun k d hm hns => ?_)
        · simp at hm
          rcases hm with ⟨rfl, rfl⟩ | ⟨rfl, rfl⟩ <;> decide
        · simp at hm
          rcases hm with ⟨_, rfl⟩ | ⟨_, rfl⟩ <;> exact absurd trivial hns
      · exact .obj (by decide) (by simp) (by simp) (by simp)

/-- The hypothesis of C90 can be met. -/
example : Holds sample := sample_readable.holds

/-- The text of the example. -/
example : (make sample).bind write = some (ascii ("{\"head\" : {\"vars\" : [\"x\",\"y\"]},\"results\" : {\"bindings\" : [{\"x\" : {\"type\" : \"literal\",\"value\" : " ++
    "\"\\u0022Rome\\u0022\\u000a\"}},{}]}}")) := by decide +kernel

theorem not_same_empty : ¬Same (.arr []) (.obj []) := by intro h; cases h

/-- C90 is false for an empty array, such as the answers of a query that has none: it becomes an object. -/
theorem C90_empty_violated : ∃ d j t, make d = some j ∧ write j = some t ∧ ¬∃ d', IsJson t d' ∧ Same d d' := by
  refine ⟨.arr [], .new, [123, 125], by simp [make, makeArr], by decide +kernel, ?_⟩
  rintro ⟨d', h, hs⟩
  have h2 : IsJson [123, 125] (.obj []) := ⟨[], .empty (u := [125]) (by decide) (by decide), by decide⟩
  rw [IsJson.det h h2] at hs
  exact not_same_empty hs

/-- C90 is false for an array with a text and an object: `write` throws. -/
theorem C90_mixed_violated : ∃ d j, make d = some j ∧ write j = none :=
  ⟨.arr [.str [120], .obj []], .mk [] [] [[120]] [.new], by simp [make, makeArr, makeObj, Json.new, Json.push, Json.pushText], by decide +kernel⟩

theorem sameMembers_perm {l1 l2 : List (Text × Doc)} (hp : l1.Perm l2) : ∀ {l3}, SameMembers l2 l3 → ∃ l, SameMembers l1 l ∧ l.Perm l3 := by
  induction hp with
  | nil => intro l3 h; exact ⟨l3, h, .refl _⟩
  | cons p _ ih =>
    intro l3 h
    cases h with
    | cons h1 h2 =>
      obtain ⟨l, a, b⟩ := ih h2
      exact ⟨_ :: l, .cons h1 a, b.cons _⟩
  | swap p q l =>
    intro l3 h
    cases h with
    | cons h1 h2 =>
      cases h2 with
      | cons h3 h4 => exact ⟨_, .cons h3 (.cons h1 h4), .swap _ _ _⟩
  | trans _ _ ih1 ih2 =>
    intro l3 h
    obtain ⟨l, a, b⟩ := ih2 h
    obtain ⟨l', a', b'⟩ := ih1 a
    exact ⟨l', a', b'.trans b⟩

mutual
theorem Same.trans {a b c : Doc} (h : Same a b) (h' : Same b c) : Same a c := by
  cases h with
  | str => exact h'
  | arr x =>
    cases h' with
    | arr y => exact .arr (SameAll.trans x y)
  | obj x p =>
    cases h' with
    | obj y q =>
      obtain ⟨l, u, v⟩ := sameMembers_perm p y
      exact .obj (SameMembers.trans x u) (v.trans q)
theorem SameAll.trans {a b c : List Doc} (h : SameAll a b) (h' : SameAll b c) : SameAll a c := by
  cases h with
  | nil => exact h'
  | cons x y =>
    cases h' with
    | cons x' y' => exact .cons (Same.trans x x') (SameAll.trans y y')
theorem SameMembers.trans {a b c : List (Text × Doc)} (h : SameMembers a b) (h' : SameMembers b c) : SameMembers a c := by
  cases h with
  | nil => exact h'
  | cons x y =>
    cases h' with
    | cons x' y' => exact .cons (Same.trans x x') (SameMembers.trans y y')
end

/-- C91, for the documents of C90 without zero bytes and without arrays in arrays: the text that was written can be read, and what is read stands for the document: when it is
written again, it gives a text for the same document. -/
theorem C91_read_partial {d : Doc} (h : Readable d) :
    ∃ j t, make d = some j ∧ write j = some t ∧ (∃ j', Reads t j') ∧ ∀ j', Reads t j' → ∃ t' d', write j' = some t' ∧ IsJson t' d' ∧ Same d d' := by
  obtain ⟨j, t, d', hm, hw, hi, hs, hu⟩ := C90_write_partial h.holds
  have hr := h.same hs
  obtain ⟨j2, hp, hm2⟩ := parse_make hr
  refine ⟨j, t, hm, hw, ⟨j2, d', hi, hp⟩, ?_⟩
  rintro j' ⟨d2, hi2, hp2⟩
  have := hu d2 hi2
  subst this
  rw [hp] at hp2
  cases hp2
  obtain ⟨j3, t3, d3, hm3, hw3, hi3, hs3, _⟩ := C90_write_partial hr.holds
  rw [hm2] at hm3
  cases hm3
  exact ⟨t3, d3, hw3, hi3, Same.trans hs hs3⟩

/-- The hypothesis of C91 can be met. -/
example : ∃ d, Readable d := ⟨_, sample_readable⟩

/-- C91 is false for a text with a zero byte: the rest of it is lost. -/
theorem C91_zero_violated : ∃ d j t j', make d = some j ∧ write j = some t ∧ Reads t j' ∧ ∀ t' d', write j' = some t' → IsJson t' d' → ¬Same d d' := by
  have hr : Readable (.obj [([118], .str [97])]) :=
    .obj (by decide) (fun k d hm => by simp at hm; rw [hm.1]; decide) (fun k s hm => by simp at hm; rw [hm.1, hm.2]; decide) (fun k d hm hn => by simp at hm; rw [hm.2] at hn; exact absurd trivial hn)
  have hd : Holds (.obj [([118], .str [97, 0, 98])]) :=
    .obj (by decide) (fun k d hm _ => by simp at hm; rw [hm.1]; decide) (fun k d hm hn => by simp at hm; rw [hm.2] at hn; exact absurd trivial hn)
  obtain ⟨j, t, d', hm, hw, hi, hs, hu⟩ := C90_write_partial hd
  have e : d' = .obj [([118], .str [97, 0, 98])] := by
    cases hs with
    | obj a p =>
      cases a with
      | cons a1 a2 =>
        cases a1; cases a2
        have := p.length_eq
        rw [List.singleton_perm] at p
        rw [p]
  subst e
  obtain ⟨j2, t2, d2, hm2, hw2, hi2, hs2, hu2⟩ := C90_write_partial hr.holds
  refine ⟨_, j, t, j2, hm, hw, ⟨_, hi, ?_⟩, ?_⟩
  · rw [← hm2]
    simp [treeOf, treesOf', parseValue, parseMembers, parseSimple, cstr, make, makeObj, Json.new, Json.put]
  · intro t' d3 h1 h2 h3
    rw [hw2] at h1
    cases h1
    have := hu2 d3 h2
    subst this
    cases hs2 with
    | obj a p =>
      cases a with
      | cons a1 a2 =>
        cases a1; cases a2
        rw [List.singleton_perm] at p
        subst p
        cases h3 with
        | obj a p =>
          cases a with
          | cons a1 a2 =>
            cases a1; cases a2
            rw [List.singleton_perm] at p
            simp at p

/-- C91 is false for an array in an array: `read` throws. -/
theorem C91_nested_violated : Holds (.arr [.arr [.str [97]]]) ∧ parseValue (treeOf (.arr [.arr [.str [97]]])) = none := by
  refine ⟨.items (by simp) fun d hd => ?_, by decide +kernel⟩
  simp at hd
  rw [hd]
  exact .texts (by simp) (by simp [Doc.isStr])

/-- An array with objects and texts: `read` does not throw, but keeps only the elements of the kind of the last one. -/
theorem C91_mixed_violated (t : Text) : (parseValue (.arr [.obj [([118], .str t)], .str [98]])).bind write = some (ascii "[\"b\"]") := by
  have : parseValue (.arr [.obj [([118], .str t)], .str [98]]) = some (.mk [] [] [[98]] []) := by
    simp [parseValue, parseArray, parseMembers, parseSimple, cstr, Json.new, Json.put, Json.pushText]
  rw [this]
  decide +kernel

/-- An integer that has more than 32 bits: `read` throws. -/
theorem C91_integer_violated : parseValue (.obj [([118], .int (2 ^ 31))]) = none := by
  simp [parseValue, parseMembers, parseSimple]

end Trident.Http
