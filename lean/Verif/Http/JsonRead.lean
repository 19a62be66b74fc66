import Verif.Http.JsonMake
/-
Model of `JSON::read` (/repo/src/trident/utils/json.cpp:67-173).  rapidjson, which parses the text, is not part of the repository: it is assumed to return the tree that RFC 8259
says.
-/
namespace Trident.Http
open Spec

/-- A value of rapidjson.  A number is an integer, or a double, of which only the text of `std::to_string` is kept. -/
inductive Tree
  | null
  | bool (b : Bool)
  | int (i : Int)
  | double (t : Text)
  | str (s : Text)
  | arr (l : List Tree)
  | obj (l : List (Text × Tree))

/-- A `std::string` from a `char *`: it ends at the first zero byte. -/
def cstr (s : Text) : Text := s.takeWhile (· ≠ 0)

def ascii (s : String) : Text := s.toList.map Char.toNat

/-- `parse_simpletype` (json.cpp:67-89); `IsInt` is true for the integers of 32 bits, `IsDouble` is false for integers. -/
def parseSimple : Tree → Option Text
  | .null => some (ascii "NULL")
  | .bool b => some (if b then [49] else [48])
  | .int i => if -(2 ^ 31) ≤ i ∧ i < 2 ^ 31 then some (ascii (toString i)) else none
  | .double t => some t
  | .str s => some (cstr s)
  | .arr _ => none
  | .obj _ => none

mutual
/-- `parse_value` (json.cpp:96-147), for a new object `dest`. -/
def parseValue : Tree → Option Json
  | .obj l => parseMembers l .new
  | .arr l =>
    match parseArray l [] [] false with
    | some (c1, c2, objs) => some (if objs then c1.foldl Json.push .new else c2.foldl Json.pushText .new)
    | none => none
  | .null | .bool _ | .int _ | .double _ | .str _ => none
/-- The loop over the members (json.cpp:98-125). -/
def parseMembers : List (Text × Tree) → Json → Option Json
  | [], j => some j
  | (k, .obj m) :: l, j =>
    match parseValue (.obj m) with
    | some c => parseMembers l (j.addChild (cstr k) c)
    | none => none
  | (k, .arr m) :: l, j =>
    match parseArray m [] [] false with
    | some (c1, c2, objs) => parseMembers l (j.addChild (cstr k) (if objs then c1.foldl Json.push .new else c2.foldl Json.pushText .new))
    | none => none
  | (k, v) :: l, j =>
    match parseSimple v with
    | some s => match j.put (cstr k) s with
      | some j => parseMembers l j
      | none => none
    | none => none
/-- `parse_array` (json.cpp:149-162): the objects, the texts, and whether the last element is an object. -/
def parseArray : List Tree → List Json → List Text → Bool → Option (List Json × List Text × Bool)
  | [], c1, c2, objs => some (c1, c2, objs)
  | .obj m :: l, c1, c2, _ =>
    match parseValue (.obj m) with
    | some c => parseArray l (c1 ++ [c]) c2 true
    | none => none
  | v :: l, c1, c2, _ =>
    match parseSimple v with
    | some s => parseArray l c1 (c2 ++ [s]) false
    | none => none
end

mutual
/-- The tree of a document. -/
def treeOf : Doc → Tree
  | .str s => .str s
  | .arr l => .arr (treesOf l)
  | .obj l => .obj (treesOf' l)
def treesOf : List Doc → List Tree
  | [] => []
  | d :: l => treeOf d :: treesOf l
def treesOf' : List (Text × Doc) → List (Text × Tree)
  | [] => []
  | (k, d) :: l => (k, treeOf d) :: treesOf' l
end

/-- `JSON::read` (json.cpp:165-173) of a text without numbers, booleans and null: the object it returns. -/
def Reads (t : Text) (j : Json) : Prop := ∃ d, IsJson t d ∧ parseValue (treeOf d) = some j

/-! ## Proofs -/

/-- Whether a document is an object. -/
def Spec.Doc.isObj : Doc → Prop
  | .obj _ => True
  | _ => False

/-- The documents that can be read: as `Holds`, no array is an element of an array, and there are no zero bytes. -/
inductive Readable : Doc → Prop
  | texts {l} : l ≠ [] → (∀ d ∈ l, ∃ s, d = .str s ∧ 0 ∉ s) → Readable (.arr l)
  | items {l} : l ≠ [] → (∀ d ∈ l, d.isObj) → (∀ d ∈ l, Readable d) → Readable (.arr l)
  | obj {l} : (l.map (·.1)).Nodup → (∀ k d, (k, d) ∈ l → 0 ∉ k) → (∀ k s, (k, .str s) ∈ l → k ≠ [] ∧ 0 ∉ s) → (∀ k d, (k, d) ∈ l → ¬d.isStr → Readable d) → Readable (.obj l)

theorem Readable.holds {d : Doc} (h : Readable d) : Holds d := by
  induction h with
  | texts hne h => exact .texts hne fun d hd => by obtain ⟨s, rfl, _⟩ := h d hd; trivial
  | items hne _ _ ih => exact .items hne ih
  | obj hd _ hs _ ih =>
    refine .obj hd (fun k d hm hstr => ?_) ih
    cases d with
    | str s => exact (hs k s hm).1
    | arr => exact hstr.elim
    | obj => exact hstr.elim

theorem sameMembers_keys {l l' : List (Text × Doc)} (h : SameMembers l l') : l.map (·.1) = l'.map (·.1) := by
  induction l generalizing l' with
  | nil => cases h; rfl
  | cons p l ih => cases h with | cons h1 h2 => simp [ih h2]

theorem same_isStr {d d' : Doc} (h : Same d d') (hs : d'.isStr) : ∃ s, d = .str s ∧ d' = .str s := by
  cases h with
  | str => exact ⟨_, rfl, rfl⟩
  | arr => exact hs.elim
  | obj => exact hs.elim

theorem same_isObj {d d' : Doc} (h : Same d d') (hs : d.isObj) : d'.isObj := by
  cases h with
  | str => exact hs
  | arr => exact hs
  | obj => trivial

theorem sameMembers_mem {l l' : List (Text × Doc)} (h : SameMembers l l') {k d'} (hm : (k, d') ∈ l') : ∃ d, (k, d) ∈ l ∧ Same d d' := by
  induction l generalizing l' with
  | nil => cases h; cases hm
  | cons p l ih =>
    cases h with
    | cons h1 h2 =>
      rcases List.mem_cons.1 hm with e | hm
      · cases e; exact ⟨_, .head _, h1⟩
      · obtain ⟨d, hd, hs⟩ := ih h2 hm
        exact ⟨d, .tail _ hd, hs⟩

theorem sameAll_mem {l l' : List Doc} (h : SameAll l l') {d'} (hm : d' ∈ l') : ∃ d, d ∈ l ∧ Same d d' := by
  induction l generalizing l' with
  | nil => cases h; cases hm
  | cons p l ih =>
    cases h with
    | cons h1 h2 =>
      rcases List.mem_cons.1 hm with e | hm
      · cases e; exact ⟨_, .head _, h1⟩
      · obtain ⟨d, hd, hs⟩ := ih h2 hm
        exact ⟨d, .tail _ hd, hs⟩

theorem Readable.same {d d' : Doc} (h : Readable d) (hs : Same d d') : Readable d' := by
  induction h generalizing d' with
  | texts hne h =>
    cases hs with
    | @arr _ l' ha =>
      refine .texts (by rintro rfl; cases ha; exact hne rfl) fun d' hd' => ?_
      obtain ⟨d, hd, hs⟩ := sameAll_mem ha hd'
      obtain ⟨s, rfl, h0⟩ := h d hd
      cases hs
      exact ⟨s, rfl, h0⟩
  | items hne ho _ ih =>
    cases hs with
    | @arr _ l' ha =>
      refine .items (by rintro rfl; cases ha; exact hne rfl) (fun d' hd' => ?_) (fun d' hd' => ?_)
      · obtain ⟨d, hd, hs⟩ := sameAll_mem ha hd'
        exact same_isObj hs (ho d hd)
      · obtain ⟨d, hd, hs⟩ := sameAll_mem ha hd'
        exact ih d hd hs
  | obj hd hk hstr _ ih =>
    cases hs with
    | obj hm hp =>
      refine .obj ?_ (fun k d' hd' => ?_) (fun k s hd' => ?_) (fun k d' hd' hns => ?_)
      · rw [sameMembers_keys hm] at hd
        exact (hp.map (·.1)).nodup_iff.1 hd
      · obtain ⟨d, h1, _⟩ := sameMembers_mem hm (hp.mem_iff.2 hd')
        exact hk k d h1
      · obtain ⟨d, h1, h2⟩ := sameMembers_mem hm (hp.mem_iff.2 hd')
        obtain ⟨s', rfl, e⟩ := same_isStr h2 trivial
        cases e
        exact hstr k s h1
      · obtain ⟨d, h1, h2⟩ := sameMembers_mem hm (hp.mem_iff.2 hd')
        refine ih k d h1 ?_ h2
        intro hs
        cases h2 with
        | str => exact hns trivial
        | arr => exact hs
        | obj => exact hs

theorem cstr_eq {s : Text} (h : 0 ∉ s) : cstr s = s := by
  unfold cstr
  induction s with
  | nil => rfl
  | cons c s ih =>
    simp only [List.mem_cons, not_or] at h
    rw [List.takeWhile_cons, if_pos (by simpa using fun e => h.1 e.symm), ih h.2]

theorem foldl_pushText (ss : List Text) (vs cs ls js) : ss.foldl Json.pushText (.mk vs cs ls js) = .mk vs cs (ls ++ ss) js := by
  induction ss generalizing ls with
  | nil => simp
  | cons s ss ih => simp only [List.foldl_cons, Json.pushText]; rw [ih]; simp

theorem foldl_push (l : List Json) (vs cs ls js) : l.foldl Json.push (.mk vs cs ls js) = .mk vs cs ls (js ++ l) := by
  induction l generalizing js with
  | nil => simp
  | cons s ss ih => simp only [List.foldl_cons, Json.push]; rw [ih]; simp

/-- The element of an array that `parse_array` makes is the one that `make` makes. -/
theorem parseArray_texts {ss : List Text} (h : ∀ s ∈ ss, 0 ∉ s) (c1 : List Json) (c2 : List Text) (b : Bool) :
    parseArray (treesOf (ss.map .str)) c1 c2 b = some (c1, c2 ++ ss, if ss = [] then b else false) := by
  induction ss generalizing c2 b with
  | nil => simp [treesOf, parseArray]
  | cons s ss ih =>
    simp only [List.map_cons, treesOf, treeOf, parseArray, parseSimple]
    rw [cstr_eq (h s (.head _)), ih (fun s hs => h s (.tail _ hs))]
    simp

theorem parseArray_items {l : List Doc} (ho : ∀ d ∈ l, d.isObj) (h : ∀ d ∈ l, ∃ j, parseValue (treeOf d) = some j ∧ make d = some j) (vs cs ls js) (c1 : List Json) (c2 : List Text) (b : Bool) :
    ∃ new, parseArray (treesOf l) c1 c2 b = some (c1 ++ new, c2, if l = [] then b else true) ∧ makeArr l (.mk vs cs ls js) = some (.mk vs cs ls (js ++ new)) := by
  induction l generalizing c1 b js with
  | nil => exact ⟨[], by simp [treesOf, parseArray], by simp [makeArr]⟩
  | cons d l ih =>
    cases d with
    | str => exact (ho _ (.head _)).elim
    | arr => exact (ho _ (.head _)).elim
    | obj m =>
      obtain ⟨c, h1, h2⟩ := h _ (.head _)
      obtain ⟨new, e1, e2⟩ := ih (fun d hd => ho d (.tail _ hd)) (fun d hd => h d (.tail _ hd)) (js ++ [c]) (c1 ++ [c]) true
      refine ⟨c :: new, ?_, ?_⟩
      · simp only [treeOf] at h1
        simp only [treesOf, treeOf, parseArray]
        rw [h1]
        simp only
        rw [e1]; simp
      · simp only [makeArr]
        rw [h2]
        simp only [Json.push]
        rw [e2]; simp

theorem parseMembers_eq {l : List (Text × Doc)} (hk : ∀ k d, (k, d) ∈ l → 0 ∉ k) (hs : ∀ k s, (k, .str s) ∈ l → 0 ∉ s)
    (h : ∀ k d, (k, d) ∈ l → ¬d.isStr → ∃ j, parseValue (treeOf d) = some j ∧ make d = some j) (j : Json) : parseMembers (treesOf' l) j = makeObj l j := by
  induction l generalizing j with
  | nil => simp [treesOf', parseMembers, makeObj]
  | cons p l ih =>
    obtain ⟨k, d⟩ := p
    have ih := ih (fun k d hm => hk k d (.tail _ hm)) (fun k d hm => hs k d (.tail _ hm)) (fun k d hm => h k d (.tail _ hm))
    have h0 := cstr_eq (hk k d (.head _))
    cases d with
    | str s =>
      simp only [treesOf', treeOf, parseMembers, makeObj, parseSimple]
      rw [h0, cstr_eq (hs k s (.head _))]
      cases j.put k s with
      | none => rfl
      | some j => exact ih j
    | arr m =>
      obtain ⟨c, h1, h2⟩ := h k _ (.head _) (by simp [Doc.isStr])
      simp only [treesOf', treeOf, parseMembers, makeObj]
      rw [h2, h0]
      simp only [treeOf, parseValue] at h1
      cases ha : parseArray (treesOf m) [] [] false with
      | none => rw [ha] at h1; simp at h1
      | some r =>
        obtain ⟨c1, c2, objs⟩ := r
        rw [ha] at h1
        simp only [Option.some.injEq] at h1
        simp only
        rw [h1]
        exact ih _
    | obj m =>
      obtain ⟨c, h1, h2⟩ := h k _ (.head _) (by simp [Doc.isStr])
      simp only [treeOf] at h1
      simp only [treesOf', treeOf, parseMembers, makeObj]
      rw [h1, h2, h0]
      exact ih _

theorem parse_make {d : Doc} (h : Readable d) : ∃ j, parseValue (treeOf d) = some j ∧ make d = some j := by
  induction h with
  | @texts l hne h =>
    obtain ⟨ss, e, hm⟩ := makeArr_texts (l := l) (fun d hd => by obtain ⟨s, rfl, _⟩ := h d hd; trivial) [] [] [] []
    refine ⟨_, ?_, by simp only [make, Json.new]; exact hm⟩
    subst e
    simp only [treeOf, parseValue]
    rw [parseArray_texts (fun s hs => by
      obtain ⟨s', e, h0⟩ := h (.str s) (List.mem_map_of_mem hs)
      cases e; exact h0)]
    simp only [List.nil_append, ite_self, Bool.false_eq_true, if_false, Json.new, foldl_pushText]
  | @items l hne ho _ ih =>
    obtain ⟨new, e1, e2⟩ := parseArray_items ho ih [] [] [] [] [] [] false
    refine ⟨_, ?_, by simp only [make, Json.new]; exact e2⟩
    simp only [treeOf, parseValue]
    rw [e1]
    simp only [hne, if_false, if_true, Json.new, foldl_push, List.nil_append]
  | @obj l hd hk hs _ ih =>
    obtain ⟨j, _, hm, _⟩ := holds_good (Holds.obj hd (fun k d hm hstr => by
      cases d with
      | str s => exact (hs k s hm).1
      | arr => exact hstr.elim
      | obj => exact hstr.elim) (fun k d hm hns => by
        rename_i h4
        exact (h4 k d hm hns).holds))
    refine ⟨j, ?_, hm⟩
    simp only [treeOf, parseValue]
    rw [parseMembers_eq hk (fun k s hm => (hs k s hm).2) ih]
    simpa only [make] using hm

end Trident.Http
