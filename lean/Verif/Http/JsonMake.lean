import Verif.Http.JsonProofs
/-
From a document to the calls that put it into a `JSON` object, and from there to the text.
-/
namespace Trident.Http
open Spec

mutual
/-- The calls that make the object for a document: `push_back` for the elements of an array, `put` and `add_child` for the members of an object.  The class has no object for a text. -/
def make : Doc → Option Json
  | .str _ => none
  | .arr l => makeArr l .new
  | .obj l => makeObj l .new
def makeArr : List Doc → Json → Option Json
  | [], j => some j
  | .str s :: l, j => makeArr l (j.pushText s)
  | .arr m :: l, j => match make (.arr m) with
    | none => none
    | some c => makeArr l (j.push c)
  | .obj m :: l, j => match make (.obj m) with
    | none => none
    | some c => makeArr l (j.push c)
def makeObj : List (Text × Doc) → Json → Option Json
  | [], j => some j
  | (k, .str s) :: l, j => match j.put k s with
    | none => none
    | some j => makeObj l j
  | (k, .arr m) :: l, j => match make (.arr m) with
    | none => none
    | some c => makeObj l (j.addChild k c)
  | (k, .obj m) :: l, j => match make (.obj m) with
    | none => none
    | some c => makeObj l (j.addChild k c)
end

/-- Whether a document is a text. -/
def Spec.Doc.isStr : Doc → Prop
  | .str _ => True
  | _ => False

/-- The documents that the class can hold: no array is empty, an array has only texts or no texts, the members of an object have different names, and a text as a member has a
name that is not empty. -/
inductive Holds : Doc → Prop
  | texts {l} : l ≠ [] → (∀ d ∈ l, d.isStr) → Holds (.arr l)
  | items {l} : l ≠ [] → (∀ d ∈ l, Holds d) → Holds (.arr l)
  | obj {l} : (l.map (·.1)).Nodup → (∀ k d, (k, d) ∈ l → d.isStr → k ≠ []) → (∀ k d, (k, d) ∈ l → ¬d.isStr → Holds d) → Holds (.obj l)

theorem Holds.not_str {d : Doc} (h : Holds d) : ¬d.isStr := by cases h <;> simp [Doc.isStr]

theorem makeArr_cons {d : Doc} {l : List Doc} {j : Json} (h : ¬d.isStr) : makeArr (d :: l) j = match make d with
    | none => none
    | some c => makeArr l (j.push c) := by
  cases d with
  | str => simp [Doc.isStr] at h
  | arr => simp only [makeArr]
  | obj => simp only [makeArr]

theorem makeObj_cons {k : Text} {d : Doc} {l : List (Text × Doc)} {j : Json} (h : ¬d.isStr) : makeObj ((k, d) :: l) j = match make d with
    | none => none
    | some c => makeObj l (j.addChild k c) := by
  cases d with
  | str => simp [Doc.isStr] at h
  | arr => simp only [makeObj]
  | obj => simp only [makeObj]

/-! ## Maps -/

theorem insert_perm {β : Type} {k : Text} {v : β} {m : List (Text × β)} (h : k ∉ m.map (·.1)) : (insert k v m).Perm ((k, v) :: m) := by
  induction m with
  | nil => exact .refl _
  | cons p m ih =>
    obtain ⟨k', v'⟩ := p
    simp only [List.map_cons, List.mem_cons, not_or] at h
    simp only [insert]
    rw [if_neg h.1]
    split
    · exact .refl _
    · exact ((ih h.2).cons _).trans (.swap _ _ _)

theorem meanMembers_map (cs : List (Text × Json)) : meanMembers cs = cs.map fun p => (p.1, meaning p.2) := by
  induction cs with
  | nil => rfl
  | cons p cs ih => obtain ⟨k, j⟩ := p; simp [meanMembers, ih]

theorem meanings_map (js : List Json) : meanings js = js.map meaning := by
  induction js with
  | nil => rfl
  | cons j js ih => simp [meanings, ih]

theorem writeChildren_some {cs : List (Text × Json)} (h : ∀ p ∈ cs, ∃ t, write p.2 = some t) (first : Bool) : ∃ t, writeChildren cs first = some t := by
  induction cs generalizing first with
  | nil => exact ⟨_, rfl⟩
  | cons p cs ih =>
    obtain ⟨k, j⟩ := p
    obtain ⟨a, ha⟩ := h _ (.head _)
    obtain ⟨b, hb⟩ := ih (fun p hp => h p (.tail _ hp)) false
    exact ⟨_, by simp only [writeChildren]; simp only at ha; rw [ha, hb]⟩

theorem writeItems_some {js : List Json} (h : ∀ j ∈ js, ∃ t, write j = some t) (first : Bool) : ∃ t, writeItems js first = some t := by
  induction js generalizing first with
  | nil => exact ⟨_, rfl⟩
  | cons j js ih =>
    obtain ⟨a, ha⟩ := h _ (.head _)
    obtain ⟨b, hb⟩ := ih (fun p hp => h p (.tail _ hp)) false
    exact ⟨_, by simp only [writeItems]; rw [ha, hb]⟩

/-! ## The calls -/

/-- What is shown for a document: it has an object, which can be written and stands for the document. -/
def Good (d : Doc) : Prop := ∃ j t, make d = some j ∧ write j = some t ∧ Same d (meaning j)

theorem makeArr_texts {l : List Doc} (h : ∀ d ∈ l, d.isStr) (vs : List (Text × Text)) (cs : List (Text × Json)) (ls : List Text) (js : List Json) :
    ∃ ss : List Text, l = ss.map .str ∧ makeArr l (.mk vs cs ls js) = some (.mk vs cs (ls ++ ss) js) := by
  induction l generalizing ls with
  | nil => exact ⟨[], rfl, by simp [makeArr]⟩
  | cons d l ih =>
    cases d with
    | str s =>
      obtain ⟨ss, e, h2⟩ := ih (fun d hd => h d (.tail _ hd)) (ls ++ [s])
      exact ⟨s :: ss, by simp [e], by simp only [makeArr, Json.pushText]; rw [h2]; simp⟩
    | arr => exact (h _ (.head _)).elim
    | obj => exact (h _ (.head _)).elim

theorem makeArr_items {l : List Doc} (hn : ∀ d ∈ l, ¬d.isStr) (h : ∀ d ∈ l, Good d) (vs : List (Text × Text)) (cs : List (Text × Json)) (ls : List Text) (js : List Json) :
    ∃ new : List Json, makeArr l (.mk vs cs ls js) = some (.mk vs cs ls (js ++ new)) ∧ SameAll l (new.map meaning) ∧ (∀ j ∈ new, ∃ t, write j = some t) ∧ (l ≠ [] → new ≠ []) := by
  induction l generalizing js with
  | nil => exact ⟨[], by simp [makeArr], .nil, by simp, by simp⟩
  | cons d l ih =>
    obtain ⟨c, t, hm, hw, hs⟩ := h _ (.head _)
    obtain ⟨new, h1, h2, h3, _⟩ := ih (fun d hd => hn d (.tail _ hd)) (fun d hd => h d (.tail _ hd)) (js ++ [c])
    refine ⟨c :: new, ?_, .cons hs h2, ?_, by simp⟩
    · rw [makeArr_cons (hn _ (.head _)), hm]
      simp only [Json.push]
      rw [h1]; simp
    · intro j hj
      rcases List.mem_cons.1 hj with rfl | hj
      · exact ⟨t, hw⟩
      · exact h3 j hj

theorem perm_mid {α : Type} {A A' B C : List α} {x : α} (h : A'.Perm (x :: A)) : (A ++ B ++ x :: C).Perm (A' ++ B ++ C) := by
  have h1 : (A ++ B ++ x :: C).Perm (x :: (A ++ B ++ C)) := List.perm_middle
  have h2 : (A' ++ B ++ C).Perm (x :: A ++ B ++ C) := (h.append_right B).append_right C
  exact h1.trans h2.symm

theorem perm_mid' {α : Type} {A B B' C : List α} {x : α} (h : B'.Perm (x :: B)) : (A ++ B ++ x :: C).Perm (A ++ B' ++ C) := by
  have h1 : (A ++ B ++ x :: C).Perm (x :: (A ++ B ++ C)) := List.perm_middle
  have h2 : (A ++ B' ++ C).Perm (A ++ (x :: B) ++ C) := (h.append_left A).append_right C
  have h3 : (A ++ (x :: B) ++ C).Perm (x :: (A ++ B ++ C)) := by
    have : (A ++ x :: B).Perm (x :: (A ++ B)) := List.perm_middle
    simpa using this.append_right C
  exact h1.trans (h2.trans h3).symm

theorem makeObj_good {l : List (Text × Doc)} (hd : (l.map (·.1)).Nodup) (h : ∀ k d, (k, d) ∈ l → d.isStr ∧ k ≠ [] ∨ ¬d.isStr ∧ Good d)
    (vs : List (Text × Text)) (cs : List (Text × Json)) (hv : ∀ k ∈ l.map (·.1), k ∉ vs.map (·.1)) (hc : ∀ k ∈ l.map (·.1), k ∉ cs.map (·.1))
    (hw : ∀ p ∈ cs, ∃ t, write p.2 = some t) :
    ∃ vs' cs' l', makeObj l (.mk vs cs [] []) = some (.mk vs' cs' [] []) ∧ SameMembers l l' ∧ (∀ p ∈ cs', ∃ t, write p.2 = some t) ∧
      (vs.map (fun p => (p.1, Doc.str p.2)) ++ cs.map (fun p => (p.1, meaning p.2)) ++ l').Perm (vs'.map (fun p => (p.1, Doc.str p.2)) ++ cs'.map (fun p => (p.1, meaning p.2))) := by
  induction l generalizing vs cs with
  | nil => exact ⟨vs, cs, [], by simp [makeObj], .nil, hw, by simp⟩
  | cons p l ih =>
    obtain ⟨k, d⟩ := p
    simp only [List.map_cons, List.nodup_cons] at hd
    simp only [List.map_cons, List.mem_cons, forall_eq_or_imp] at hv hc
    rcases h k d (.head _) with ⟨hs, hk⟩ | ⟨hs, hg⟩
    · cases d with
      | arr => exact hs.elim
      | obj => exact hs.elim
      | str s =>
        have hp := insert_perm (v := s) hv.1
        obtain ⟨vs', cs', l', e1, e2, e3, e4⟩ := ih hd.2 (fun k d hm => h k d (.tail _ hm)) (insert k s vs) cs (by
            intro k' hk' hm
            have := (hp.map (·.1)).mem_iff.1 hm
            simp only [List.map_cons, List.mem_cons] at this
            rcases this with rfl | this
            · exact hd.1 hk'
            · exact hv.2 k' hk' this) hc.2 hw
        refine ⟨vs', cs', (k, .str s) :: l', ?_, .cons .str e2, e3, (perm_mid ?_).trans e4⟩
        · simp only [makeObj, Json.put]
          rw [if_neg hk]; exact e1
        · exact hp.map _
    · obtain ⟨c, t, hm, hwr, hsm⟩ := hg
      have hp := insert_perm (v := c) hc.1
      obtain ⟨vs', cs', l', e1, e2, e3, e4⟩ := ih hd.2 (fun k d hm => h k d (.tail _ hm)) vs (insert k c cs) hv.2 (by
          intro k' hk' hm
          have := (hp.map (·.1)).mem_iff.1 hm
          simp only [List.map_cons, List.mem_cons] at this
          rcases this with rfl | this
          · exact hd.1 hk'
          · exact hc.2 k' hk' this) (by
          intro p hm
          rcases List.mem_cons.1 (hp.mem_iff.1 hm) with rfl | hm
          · exact ⟨t, hwr⟩
          · exact hw p hm)
      refine ⟨vs', cs', (k, meaning c) :: l', ?_, .cons hsm e2, e3, (perm_mid' ?_).trans e4⟩
      · rw [makeObj_cons hs, hm]
        simp only [Json.addChild]
        exact e1
      · exact hp.map (fun p => (p.1, meaning p.2))

theorem sameAll_str (ss : List Text) : SameAll (ss.map .str) (ss.map .str) := by
  induction ss with
  | nil => exact .nil
  | cons s ss ih => exact .cons .str ih

theorem holds_good {d : Doc} (h : Holds d) : Good d := by
  induction h with
  | @texts l hne hs =>
    obtain ⟨ss, e, hm⟩ := makeArr_texts hs [] [] [] []
    have hss : ss ≠ [] := by rintro rfl; exact hne (by simpa using e)
    have hw : ∃ t, write (.mk [] [] ss []) = some t := by simp [write, hss]
    obtain ⟨t, ht⟩ := hw
    refine ⟨_, t, by simp only [make, Json.new]; exact hm, ht, ?_⟩
    simp only [meaning, List.isEmpty_nil, Bool.not_true, Bool.false_eq_true, if_false, List.nil_append, show ss.isEmpty = false by simp [hss], Bool.not_false, if_true]
    rw [e]
    exact .arr (sameAll_str ss)
  | @items l hne hs ih =>
    obtain ⟨new, hm, hsm, hw, hn⟩ := makeArr_items (fun d hd => (hs d hd).not_str) ih [] [] [] []
    obtain ⟨t, ht⟩ := writeItems_some hw true
    have hn := hn hne
    refine ⟨_, [91] ++ t ++ [93], by simp only [make, Json.new]; exact hm, ?_, ?_⟩
    · simp [write, hn, ht]
    · simp only [meaning, List.nil_append, show new.isEmpty = false by simp [hn], Bool.not_false, if_true, meanings_map]
      exact .arr hsm
  | @obj l hd hs _ ih =>
    have hk : ∀ k d, (k, d) ∈ l → d.isStr ∧ k ≠ [] ∨ ¬d.isStr ∧ Good d := by
      intro k d hm
      by_cases h : d.isStr
      · exact .inl ⟨h, hs k d hm h⟩
      · exact .inr ⟨h, ih k d hm h⟩
    obtain ⟨vs', cs', l', e1, e2, e3, e4⟩ := makeObj_good hd hk [] [] (by simp) (by simp) (by simp)
    obtain ⟨t, ht⟩ := writeChildren_some e3 vs'.isEmpty
    refine ⟨_, [123] ++ writeValues vs' true ++ t ++ [125], by simp only [make, Json.new]; exact e1, ?_, ?_⟩
    · simp [write, ht]
    · simp only [meaning, List.isEmpty_nil, Bool.not_true, Bool.false_eq_true, if_false, meanMembers_map]
      exact .obj e2 (by simpa using e4)

end Trident.Http
