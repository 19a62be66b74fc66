import Verif.Http.Json
import Verif.Http.JsonSpec
/-
Proofs about `JSON::write`: the text is JSON and stands for what was put into the object.
-/
namespace Trident.Http
open Spec

/-! ## A text stands for one document only -/

theorem Chars.det {t s r s' r'} (h : Chars t s r) (h' : Chars t s' r') : s = s' ∧ r = r' := by
  induction h generalizing s' r' with
  | close =>
    cases h' with
    | close => exact ⟨rfl, rfl⟩
    | plain a => exact absurd rfl a
  | plain a b c _ ih =>
    cases h' with
    | close => exact absurd rfl a
    | plain _ _ _ h2 => obtain ⟨e1, e2⟩ := ih h2; exact ⟨by rw [e1], e2⟩
    | short => exact absurd rfl b
    | hex => exact absurd rfl b
  | short hs _ ih =>
    cases h' with
    | plain _ b => exact absurd rfl b
    | short hs' h2 =>
      rw [hs] at hs'; cases hs'
      obtain ⟨e1, e2⟩ := ih h2; exact ⟨by rw [e1], e2⟩
    | hex => simp [Spec.short] at hs
  | hex ha hb hc hd _ _ ih =>
    cases h' with
    | plain _ b => exact absurd rfl b
    | short hs' h2 => simp [Spec.short] at hs'
    | hex ha' hb' hc' hd' _ h2 =>
      rw [ha] at ha'; rw [hb] at hb'; rw [hc] at hc'; rw [hd] at hd'
      cases ha'; cases hb'; cases hc'; cases hd'
      obtain ⟨e1, e2⟩ := ih h2; exact ⟨by rw [e1], e2⟩

theorem head_eq {a b : Nat} {u v t : List Nat} (h : skip t = a :: u) (h' : skip t = b :: v) : a = b ∧ u = v := by
  rw [h] at h'; cases h'; exact ⟨rfl, rfl⟩

theorem Value.head {t d r} (h : Value t d r) : ∃ c u, skip t = c :: u ∧ (c = 34 ∨ c = 91 ∨ c = 123) := by
  cases h with
  | str h => exact ⟨_, _, h, .inl rfl⟩
  | none h => exact ⟨_, _, h, .inr (.inl rfl)⟩
  | arr h => exact ⟨_, _, h, .inr (.inl rfl)⟩
  | empty h => exact ⟨_, _, h, .inr (.inr rfl)⟩
  | obj h => exact ⟨_, _, h, .inr (.inr rfl)⟩

theorem Elems.head {t l r} (h : Elems t l r) : ∃ c u, skip t = c :: u ∧ (c = 34 ∨ c = 91 ∨ c = 123) := by
  cases h with
  | one h => exact Value.head h
  | more h => exact Value.head h

theorem Members.head {t l r} (h : Members t l r) : ∃ u, skip t = 34 :: u := by
  cases h with
  | one h => exact ⟨_, h⟩
  | more h => exact ⟨_, h⟩

mutual
theorem Value.det {t d r} (h : Value t d r) : ∀ {d' r'}, Value t d' r' → d = d' ∧ r = r' := by
  intro d' r' h'
  cases h with
  | str a c =>
    cases h' with
    | str a' c' =>
      obtain ⟨_, rfl⟩ := head_eq a a'
      obtain ⟨rfl, rfl⟩ := Chars.det c c'
      exact ⟨rfl, rfl⟩
    | none a' => exact absurd (head_eq a a').1 (by decide)
    | arr a' => exact absurd (head_eq a a').1 (by decide)
    | empty a' => exact absurd (head_eq a a').1 (by decide)
    | obj a' => exact absurd (head_eq a a').1 (by decide)
  | none a c =>
    cases h' with
    | str a' => exact absurd (head_eq a a').1 (by decide)
    | none a' c' =>
      obtain ⟨_, rfl⟩ := head_eq a a'
      obtain ⟨_, rfl⟩ := head_eq c c'
      exact ⟨rfl, rfl⟩
    | arr a' c' =>
      obtain ⟨_, rfl⟩ := head_eq a a'
      obtain ⟨_, _, e, f⟩ := Elems.head c'
      obtain ⟨e, _⟩ := head_eq c e
      subst e; simp at f
    | empty a' => exact absurd (head_eq a a').1 (by decide)
    | obj a' => exact absurd (head_eq a a').1 (by decide)
  | arr a c =>
    cases h' with
    | str a' => exact absurd (head_eq a a').1 (by decide)
    | none a' c' =>
      obtain ⟨_, rfl⟩ := head_eq a a'
      obtain ⟨_, _, e, f⟩ := Elems.head c
      obtain ⟨e, _⟩ := head_eq c' e
      subst e; simp at f
    | arr a' c' =>
      obtain ⟨_, rfl⟩ := head_eq a a'
      obtain ⟨rfl, rfl⟩ := Elems.det c c'
      exact ⟨rfl, rfl⟩
    | empty a' => exact absurd (head_eq a a').1 (by decide)
    | obj a' => exact absurd (head_eq a a').1 (by decide)
  | empty a c =>
    cases h' with
    | str a' => exact absurd (head_eq a a').1 (by decide)
    | none a' => exact absurd (head_eq a a').1 (by decide)
    | arr a' => exact absurd (head_eq a a').1 (by decide)
    | empty a' c' =>
      obtain ⟨_, rfl⟩ := head_eq a a'
      obtain ⟨_, rfl⟩ := head_eq c c'
      exact ⟨rfl, rfl⟩
    | obj a' c' =>
      obtain ⟨_, rfl⟩ := head_eq a a'
      obtain ⟨_, e⟩ := Members.head c'
      exact absurd (head_eq c e).1 (by decide)
  | obj a c =>
    cases h' with
    | str a' => exact absurd (head_eq a a').1 (by decide)
    | none a' => exact absurd (head_eq a a').1 (by decide)
    | arr a' => exact absurd (head_eq a a').1 (by decide)
    | empty a' c' =>
      obtain ⟨_, rfl⟩ := head_eq a a'
      obtain ⟨_, e⟩ := Members.head c
      exact absurd (head_eq c' e).1 (by decide)
    | obj a' c' =>
      obtain ⟨_, rfl⟩ := head_eq a a'
      obtain ⟨rfl, rfl⟩ := Members.det c c'
      exact ⟨rfl, rfl⟩
theorem Elems.det {t l r} (h : Elems t l r) : ∀ {l' r'}, Elems t l' r' → l = l' ∧ r = r' := by
  intro l' r' h'
  cases h with
  | one a c =>
    cases h' with
    | one a' c' =>
      obtain ⟨rfl, rfl⟩ := Value.det a a'
      obtain ⟨_, rfl⟩ := head_eq c c'
      exact ⟨rfl, rfl⟩
    | more a' c' =>
      obtain ⟨rfl, rfl⟩ := Value.det a a'
      exact absurd (head_eq c c').1 (by decide)
  | more a c e =>
    cases h' with
    | one a' c' =>
      obtain ⟨rfl, rfl⟩ := Value.det a a'
      exact absurd (head_eq c c').1 (by decide)
    | more a' c' e' =>
      obtain ⟨rfl, rfl⟩ := Value.det a a'
      obtain ⟨_, rfl⟩ := head_eq c c'
      obtain ⟨rfl, rfl⟩ := Elems.det e e'
      exact ⟨rfl, rfl⟩
theorem Members.det {t l r} (h : Members t l r) : ∀ {l' r'}, Members t l' r' → l = l' ∧ r = r' := by
  intro l' r' h'
  cases h with
  | one a b c d e =>
    cases h' with
    | one a' b' c' d' e' =>
      obtain ⟨_, rfl⟩ := head_eq a a'
      obtain ⟨rfl, rfl⟩ := Chars.det b b'
      obtain ⟨_, rfl⟩ := head_eq c c'
      obtain ⟨rfl, rfl⟩ := Value.det d d'
      obtain ⟨_, rfl⟩ := head_eq e e'
      exact ⟨rfl, rfl⟩
    | more a' b' c' d' e' =>
      obtain ⟨_, rfl⟩ := head_eq a a'
      obtain ⟨rfl, rfl⟩ := Chars.det b b'
      obtain ⟨_, rfl⟩ := head_eq c c'
      obtain ⟨rfl, rfl⟩ := Value.det d d'
      exact absurd (head_eq e e').1 (by decide)
  | more a b c d e f =>
    cases h' with
    | one a' b' c' d' e' =>
      obtain ⟨_, rfl⟩ := head_eq a a'
      obtain ⟨rfl, rfl⟩ := Chars.det b b'
      obtain ⟨_, rfl⟩ := head_eq c c'
      obtain ⟨rfl, rfl⟩ := Value.det d d'
      exact absurd (head_eq e e').1 (by decide)
    | more a' b' c' d' e' f' =>
      obtain ⟨_, rfl⟩ := head_eq a a'
      obtain ⟨rfl, rfl⟩ := Chars.det b b'
      obtain ⟨_, rfl⟩ := head_eq c c'
      obtain ⟨rfl, rfl⟩ := Value.det d d'
      obtain ⟨_, rfl⟩ := head_eq e e'
      obtain ⟨rfl, rfl⟩ := Members.det f f'
      exact ⟨rfl, rfl⟩
end

/-! ## What is written -/

theorem hexVal_hexDigit {n : Nat} (h : n < 16) : hexVal (hexDigit n) = some n := by
  unfold hexVal hexDigit
  by_cases h1 : n < 10
  · simp only [h1, if_true]
    rw [if_pos ⟨by omega, by omega⟩]
    congr 1; omega
  · simp only [h1, if_false]
    rw [if_neg (by omega), if_neg (by omega), if_pos ⟨by omega, by omega⟩]
    congr 1; omega

theorem chars_escape (s r : Text) : Chars (escapeJson s ++ 34 :: r) s r := by
  induction s with
  | nil => exact .close
  | cons c s ih =>
    simp only [escapeJson]
    by_cases h : c = 34 ∨ c = 92 ∨ c ≤ 31
    · rw [if_pos h]
      have hc : c < 128 := by omega
      have h0 : hexVal 48 = some 0 := by decide
      have := Chars.hex (t := escapeJson s ++ 34 :: r) (s := s) (r := r) h0 h0 (hexVal_hexDigit (n := c / 16) (by omega)) (hexVal_hexDigit (n := c % 16) (by omega)) (by omega) ih
      have e : ((0 * 16 + 0) * 16 + c / 16) * 16 + c % 16 = c := by omega
      rw [e] at this
      simpa using this
    · rw [if_neg h]
      exact .plain (by omega) (by omega) (by omega) ih

mutual
/-- The document that an object stands for. -/
def meaning : Json → Doc
  | .mk vs cs ls js =>
    if !js.isEmpty then .arr (meanings js) else if !ls.isEmpty then .arr (ls.map .str) else .obj (vs.map (fun p => (p.1, .str p.2)) ++ meanMembers cs)
def meanings : List Json → List Doc
  | [] => []
  | j :: js => meaning j :: meanings js
def meanMembers : List (Text × Json) → List (Text × Doc)
  | [] => []
  | (k, j) :: cs => (k, meaning j) :: meanMembers cs
end

theorem skip_cons {c : Nat} {t : Text} (h : ¬(c = 32 ∨ c = 9 ∨ c = 10 ∨ c = 13)) : skip (c :: t) = c :: t := by
  simp only [skip]; rw [if_neg h]

theorem skip_colon (t : Text) : skip (32 :: 58 :: t) = 58 :: t := by simp [skip]

theorem value_quoted (s r : Text) : Value (quoted s ++ r) (.str s) r := by
  refine .str (u := escapeJson s ++ 34 :: r) ?_ (chars_escape s r)
  simp [quoted, skip]

theorem value_space {t d r} (h : Value t d r) : Value (32 :: t) d r := by
  have e : skip (32 :: t) = skip t := by simp [skip]
  cases h with
  | str a c => exact .str (e.trans a) c
  | none a c => exact .none (e.trans a) c
  | arr a c => exact .arr (e.trans a) c
  | empty a c => exact .empty (e.trans a) c
  | obj a c => exact .obj (e.trans a) c

theorem elems_texts (s : Text) (l : List Text) (r : Text) : Elems (quoted s ++ writeTexts l false ++ 93 :: r) ((s :: l).map .str) r := by
  induction l generalizing s with
  | nil =>
    simp only [writeTexts, List.append_nil, List.map_cons, List.map_nil]
    exact .one (value_quoted s _) (skip_cons (by decide))
  | cons s' l ih =>
    simp only [writeTexts, List.map_cons]
    have := Elems.more (value_quoted s (44 :: (quoted s' ++ writeTexts l false ++ 93 :: r))) (skip_cons (by decide)) (ih s')
    simpa using this

theorem members_values (vs : List (Text × Text)) (rest r : Text) (cs : List (Text × Doc)) (first : Bool)
    (hr : ∀ first', (first' = false → cs = [] → rest = 125 :: r) ∧ (first' = false → cs ≠ [] → ∃ u, rest = 44 :: u ∧ Members u cs r)) :
    vs ≠ [] → ∃ u, writeValues vs first ++ rest = (if first then [] else [44]) ++ u ∧ Members u (vs.map (fun p => (p.1, Doc.str p.2)) ++ cs) r := by
  induction vs generalizing first with
  | nil => intro h; exact absurd rfl h
  | cons p vs ih =>
    obtain ⟨k, v⟩ := p
    intro _
    refine ⟨quoted k ++ [32, 58, 32] ++ quoted v ++ writeValues vs false ++ rest, by simp [writeValues], ?_⟩
    have hk : skip (quoted k ++ [32, 58, 32] ++ quoted v ++ writeValues vs false ++ rest) = 34 :: (escapeJson k ++ 34 :: ([32, 58, 32] ++ quoted v ++ writeValues vs false ++ rest)) := by
      simp [quoted, skip]
    have hv : Value (32 :: (quoted v ++ (writeValues vs false ++ rest))) (.str v) (writeValues vs false ++ rest) := value_space (value_quoted v _)
    have hc : skip ([32, 58, 32] ++ quoted v ++ writeValues vs false ++ rest) = 58 :: (32 :: (quoted v ++ (writeValues vs false ++ rest))) := by
      simp [skip]
    by_cases hvs : vs = []
    · subst hvs
      by_cases hcs : cs = []
      · subst hcs
        have := (hr false).1 rfl rfl
        refine .one hk (chars_escape _ _) hc hv ?_
        rw [this]; exact skip_cons (by decide)
      · obtain ⟨u, e, m⟩ := (hr false).2 rfl hcs
        refine .more hk (chars_escape _ _) hc hv ?_ m
        rw [e]; exact skip_cons (by decide)
    · obtain ⟨u, e, m⟩ := ih false hvs
      refine .more hk (chars_escape _ _) hc hv ?_ m
      rw [e]; exact skip_cons (by decide)

mutual
theorem write_value {j : Json} {t : Text} (h : write j = some t) (r : Text) : Value (t ++ r) (meaning j) r := by
  match j with
  | .mk vs cs ls js =>
    simp only [write] at h
    simp only [meaning]
    by_cases hj : js = []
    · subst hj
      simp only [List.isEmpty_nil, Bool.not_true, Bool.false_eq_true, if_false] at h ⊢
      by_cases hl : ls = []
      · subst hl
        simp only [List.isEmpty_nil, Bool.not_true, Bool.false_eq_true, if_false] at h ⊢
        rw [Option.map_eq_some_iff] at h
        obtain ⟨a, ha, rfl⟩ := h
        have hs : skip ([123] ++ writeValues vs true ++ a ++ [125] ++ r) = 123 :: (writeValues vs true ++ (a ++ 125 :: r)) := by
          simp [skip]
        by_cases hv : vs = []
        · subst hv
          simp only [List.isEmpty_nil] at ha
          by_cases hc : cs = []
          · subst hc
            simp only [writeChildren, Option.some.injEq] at ha
            subst ha
            simp only [meanMembers, List.map_nil, List.append_nil]
            exact .empty hs (by simp [writeValues, skip])
          · obtain ⟨u, e, m⟩ := write_children ha r hc
            refine .obj hs ?_
            simp only [if_true, List.nil_append] at e
            simp only [writeValues, List.nil_append, List.map_nil]
            rw [e]; exact m
        · have ha' : writeChildren cs false = some a := by
            rw [show vs.isEmpty = false by simp [hv]] at ha; exact ha
          obtain ⟨u, e, m⟩ := members_values vs (a ++ 125 :: r) r (meanMembers cs) true (by
            intro f
            refine ⟨fun _ hc => ?_, fun _ hc => ?_⟩
            · cases cs with
              | nil => simp only [writeChildren, Option.some.injEq] at ha'; subst ha'; rfl
              | cons p cs => obtain ⟨k, c⟩ := p; simp [meanMembers] at hc
            · have hc' : cs ≠ [] := by rintro rfl; simp [meanMembers] at hc
              obtain ⟨u, e, m⟩ := write_children ha' r hc'
              exact ⟨u, by simpa using e, m⟩) hv
          refine .obj hs ?_
          simp only [if_true, List.nil_append] at e
          rw [e]; exact m
      · simp only [show ls.isEmpty = false by simp [hl], Bool.not_false, if_true] at h ⊢
        split at h
        · cases h
        · simp only [Option.some.injEq] at h
          subst h
          cases ls with
          | nil => exact absurd rfl hl
          | cons s l =>
            refine .arr (u := quoted s ++ writeTexts l false ++ 93 :: r) ?_ (elems_texts s l r)
            simp [writeTexts, skip]
    · simp only [show js.isEmpty = false by simp [hj], Bool.not_false, if_true] at h ⊢
      split at h
      · cases h
      · rw [Option.map_eq_some_iff] at h
        obtain ⟨a, ha, rfl⟩ := h
        obtain ⟨u, e, m⟩ := write_items ha r hj
        refine .arr (u := u) ?_ m
        simp only [if_true, List.nil_append] at e
        rw [← e]
        simp [skip]
theorem write_items {js : List Json} {first : Bool} {t : Text} (h : writeItems js first = some t) (r : Text) (hne : js ≠ []) :
    ∃ u, t ++ 93 :: r = (if first then [] else [44]) ++ u ∧ Elems u (meanings js) r := by
  match js with
  | [] => exact absurd rfl hne
  | j :: js =>
    simp only [writeItems] at h
    split at h
    · rename_i a b ha hb
      simp only [Option.some.injEq] at h
      subst h
      refine ⟨a ++ (b ++ 93 :: r), by simp, ?_⟩
      simp only [meanings]
      by_cases hn : js = []
      · subst hn
        simp only [writeItems, Option.some.injEq] at hb
        subst hb
        exact .one (write_value ha _) (skip_cons (by decide))
      · obtain ⟨u, e, m⟩ := write_items hb r hn
        refine .more (write_value ha _) ?_ m
        rw [e]; exact skip_cons (by decide)
    · cases h
theorem write_children {cs : List (Text × Json)} {first : Bool} {t : Text} (h : writeChildren cs first = some t) (r : Text) (hne : cs ≠ []) :
    ∃ u, t ++ 125 :: r = (if first then [] else [44]) ++ u ∧ Members u (meanMembers cs) r := by
  match cs with
  | [] => exact absurd rfl hne
  | (k, j) :: cs =>
    simp only [writeChildren] at h
    split at h
    · rename_i a b ha hb
      simp only [Option.some.injEq] at h
      subst h
      refine ⟨quoted k ++ [32, 58, 32] ++ a ++ (b ++ 125 :: r), by simp, ?_⟩
      simp only [meanMembers]
      have hk : skip (quoted k ++ [32, 58, 32] ++ a ++ (b ++ 125 :: r)) = 34 :: (escapeJson k ++ 34 :: ([32, 58, 32] ++ a ++ (b ++ 125 :: r))) := by
        simp [quoted, skip]
      have hc : skip ([32, 58, 32] ++ a ++ (b ++ 125 :: r)) = 58 :: (32 :: (a ++ (b ++ 125 :: r))) := by
        simp [skip]
      have hv := value_space (write_value ha (b ++ 125 :: r))
      by_cases hn : cs = []
      · subst hn
        simp only [writeChildren, Option.some.injEq] at hb
        subst hb
        exact .one hk (chars_escape _ _) hc hv (skip_cons (by decide))
      · obtain ⟨u, e, m⟩ := write_children hb r hn
        refine .more hk (chars_escape _ _) hc hv ?_ m
        rw [e]; exact skip_cons (by decide)
    · cases h
end

theorem write_isJson {j : Json} {t : Text} (h : write j = some t) : IsJson t (meaning j) :=
  ⟨[], by simpa using write_value h [], by simp [skip]⟩

theorem IsJson.det {t : Text} {d d' : Doc} (h : IsJson t d) (h' : IsJson t d') : d = d' := by
  obtain ⟨r, a, _⟩ := h
  obtain ⟨r', a', _⟩ := h'
  exact (Value.det a a').1

end Trident.Http
