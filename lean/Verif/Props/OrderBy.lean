import Verif.Sparql.OrderByProofs
import Verif.Sparql.Constants
/-!
# C89: ORDER BY

`Returns E ks rows out`: the operator that sorts can return `out` for the rows `rows` of its input.  `cells E r i` is what the value number `i` of a row stands for, and
`Spec.Before` is the order that is asked for.
-/
namespace Trident.Sparql.OrderBy
open Spec
open Parse (str)

/-- **C89**, if the first byte of the last text that was looked up before is not `<`: rows with terms of the dictionary, integers that were computed or nothing in the columns that are
sorted by, where no column has terms and integers, are returned each once, and none comes after one that it should come before. -/
theorem C89_sort_partial (E : Env) (hstale : E.stale = false) (hinj : ∀ v w t, E.text v = some t → E.text w = some t → v = w) (ks : List Key) (rows : List Row)
    (hin : ∀ k ∈ ks, k.slot < 2 ^ 64 - 1 ∧ ∀ r ∈ rows, k.slot < r.2.length)
    (hvalues : ∀ k ∈ ks, (∀ r ∈ rows, IsTerm E (r.2.getD k.slot (2 ^ 64 - 1))) ∨ ∀ r ∈ rows, IsInt (r.2.getD k.slot (2 ^ 64 - 1))) :
    (∃ out, Returns E ks rows out) ∧ ∀ out, Returns E ks rows out → out.Perm rows ∧
      out.Pairwise fun a b => ¬ Before (ks.map fun k => (k.slot, k.desc)) (cells E b) (cells E a) := by
  have hc : ∀ a ∈ rows, ∀ b ∈ rows, Comparable E ks a b := fun a ha b hb k hk =>
    ⟨(hin k hk).2 a ha, (hin k hk).2 b hb, (hin k hk).1, (hvalues k hk).imp (fun h => ⟨h a ha, h b hb⟩) fun h => ⟨h a ha, h b hb⟩⟩
  have hv := valid hstale hinj hc
  refine ⟨?_, ?_⟩
  · obtain ⟨out, h1, h2⟩ := exists_sorted hv
    exact ⟨out, .sorted hv h1 h2⟩
  · intro out h
    cases h with
    | undefined h => exact absurd hv h
    | sorted _ h1 h2 =>
      refine ⟨h1, h2.imp_of_mem fun ha hb h => ?_⟩
      exact (less_false hstale hinj (hc _ (h1.mem_iff.1 hb) _ (h1.mem_iff.1 ha))).1 h

/-- The keys of `ORDER BY` are those of the registers, if each variable has one. -/
theorem C89_keys (values : List Nat) (order : List (Nat × Bool)) (h : ∀ o ∈ order, o.1 ∈ values) :
    (keys values (order.map fun o => (some o.1, o.2))).map (fun k => (values[k.slot]?, k.desc)) = order.map fun o => (some o.1, o.2) := by
  unfold keys
  rw [List.map_map, List.map_map]
  refine List.map_congr_left fun o ho => ?_
  simp only [Function.comp_apply]
  obtain ⟨i, hi⟩ : ∃ i, values.idxOf? o.1 = some i := by
    rw [← Option.isSome_iff_exists, List.isSome_idxOf?]
    exact h o ho
  rw [hi]
  obtain ⟨h1, h2, _⟩ := List.findIdx?_eq_some_iff_getElem.1 hi
  simp only [Option.getD_some]
  rw [List.getElem?_eq_getElem h1, show values[i] = o.1 by simpa using h2]

/-! ## Examples -/

/-- The terms 0 to 5. -/
def exTexts : List (List Nat) := [str "<http://b>", str "<http://a>", str "\"10\"", str "\"9\"", str "<http://a/b>", str "x"]

def exEnv (stale : Bool) : Env := ⟨fun i => exTexts[i]?, stale, fun _ _ => .eq⟩

theorem exEnv_inj (stale : Bool) : ∀ v w t, (exEnv stale).text v = some t → (exEnv stale).text w = some t → v = w := by
  intro v w t h1 h2
  have h1 : exTexts[v]? = some t := h1
  have h2 : exTexts[w]? = some t := h2
  obtain ⟨hv, e1⟩ := List.getElem?_eq_some_iff.1 h1
  obtain ⟨hw, e2⟩ := List.getElem?_eq_some_iff.1 h2
  have hn : exTexts.Nodup := by decide +kernel
  exact (List.getElem_inj hn).1 (e1.trans e2.symm)

/-- The hypotheses of `C89_sort_partial` are met: three rows, sorted by the first column and then, in descending order, by a column of integers. -/
example : ∃ out, Returns (exEnv false) [⟨0, false⟩, ⟨1, true⟩] [(1, [0, 2 ^ 62 + 5]), (2, [1, 2 ^ 62]), (1, [0, 2 ^ 62 + 7])] out ∧
    out.Perm [(1, [0, 2 ^ 62 + 5]), (2, [1, 2 ^ 62]), (1, [0, 2 ^ 62 + 7])] ∧
    out.Pairwise fun a b => ¬ Before [(0, false), (1, true)] (cells (exEnv false) b) (cells (exEnv false) a) := by
  obtain ⟨⟨out, h⟩, h'⟩ := C89_sort_partial (exEnv false) rfl (exEnv_inj false) [⟨0, false⟩, ⟨1, true⟩] [(1, [0, 2 ^ 62 + 5]), (2, [1, 2 ^ 62]), (1, [0, 2 ^ 62 + 7])]
    (by decide) (by
      intro k hk
      simp only [List.mem_cons, List.not_mem_nil, or_false] at hk
      rcases hk with rfl | rfl
      · left
        intro r hr
        simp only [List.mem_cons, List.not_mem_nil, or_false] at hr
        rcases hr with rfl | rfl | rfl <;> exact .inr (by decide +kernel)
      · right
        intro r hr
        simp only [List.mem_cons, List.not_mem_nil, or_false] at hr
        rcases hr with rfl | rfl | rfl <;> exact .inr (by decide))
  exact ⟨out, h, h' out h⟩

/-! ## Where it is false -/

deriving instance DecidableEq for Except

theorem two {E : Env} {ks : List Key} {a b : Row} {rows out : List Row} (hv : Valid (less E ks) rows) (hp : [a, b].Perm rows) (hab : less E ks a b = .ok true)
    (h : Returns E ks rows out) : out = [a, b] := by
  cases h with
  | undefined h => exact absurd hv h
  | sorted _ h1 h2 =>
    have h1 := h1.trans hp.symm
    have hl := h1.length_eq
    match out, hl with
    | [x, y], _ =>
      have hx : x = a ∨ x = b := by simpa using h1.mem_iff.1 (List.mem_cons_self)
      rcases hx with rfl | rfl
      · have h3 := (List.perm_cons x).1 h1
        rw [List.singleton_perm_singleton] at h3
        rw [h3]
      · have h3 := (List.perm_cons x).1 (h1.trans (List.Perm.swap x a []))
        rw [List.singleton_perm_singleton] at h3
        subst h3
        have := (List.pairwise_cons.1 h2).1 y List.mem_cons_self
        rw [hab] at this
        cases this

/-- The requirements of `std::sort` on two rows. -/
theorem valid_two {lt : Row → Row → Except Unit Bool} {a b : Row} (h1 : lt a a = .ok false) (h2 : lt b b = .ok false) (h3 : lt a b = .ok true) (h4 : lt b a = .ok false) :
    Valid lt [b, a] := by
  have hm : ∀ x ∈ [b, a], x = b ∨ x = a := by simp
  refine ⟨?_, ?_, ?_, ?_⟩
  · intro x hx y hy
    rcases hm x hx with rfl | rfl <;> rcases hm y hy with rfl | rfl <;> exact ⟨_, by assumption⟩
  · intro x hx
    rcases hm x hx with rfl | rfl <;> assumption
  · intro x hx y hy z hz
    rcases hm x hx with rfl | rfl <;> rcases hm y hy with rfl | rfl <;> rcases hm z hz with rfl | rfl <;> simp_all
  · intro x hx y hy z hz
    rcases hm x hx with rfl | rfl <;> rcases hm y hy with rfl | rfl <;> rcases hm z hz with rfl | rfl <;> simp_all

/-- If the last text that was looked up begins with `<`, then the last two bytes of each text are ignored: `<http://b>` comes before `<http://a>`. -/
theorem C89_stale_violated :
    (∃ out, Returns (exEnv true) [⟨0, false⟩] [(1, [1]), (1, [0])] out) ∧
    ∀ out, Returns (exEnv true) [⟨0, false⟩] [(1, [1]), (1, [0])] out →
      out.map (fun r => r.2.map (exEnv true).text) = [[some (str "<http://b>")], [some (str "<http://a>")]] ∧
      ¬ out.Pairwise fun a b => ¬ Before [(0, false)] (cells (exEnv true) b) (cells (exEnv true) a) := by
  have hv : Valid (less (exEnv true) [⟨0, false⟩]) [(1, [1]), (1, [0])] := valid_two (by decide +kernel) (by decide +kernel) (by decide +kernel) (by decide +kernel)
  obtain ⟨o, h1, h2⟩ := exists_sorted hv
  refine ⟨⟨o, .sorted hv h1 h2⟩, fun out h => ?_⟩
  rw [two hv (List.Perm.swap _ _ _) (by decide +kernel) h]
  refine ⟨by decide +kernel, fun h => ?_⟩
  refine (List.pairwise_cons.1 h).1 _ List.mem_cons_self (.inl ?_)
  show Cell.lt (cells (exEnv true) (1, [1]) 0) (cells (exEnv true) (1, [0]) 0)
  rw [show cells (exEnv true) (1, [1]) 0 = .text (str "<http://a>") by decide +kernel, show cells (exEnv true) (1, [0]) 0 = .text (str "<http://b>") by decide +kernel]
  show str "<http://a>" < str "<http://b>"
  decide +kernel

/-- A text of one byte, after an IRI was looked up: the length is made very large and the comparison reads outside of the buffers. -/
theorem C89_short_violated : ∀ out, Returns (exEnv true) [⟨0, false⟩] [(1, [5]), (1, [0])] out := fun _ => .undefined fun h => by
  obtain ⟨r, h⟩ := h.defined (1, [5]) (by simp) (1, [0]) (by simp)
  have : less (exEnv true) [⟨0, false⟩] (1, [5]) (1, [0]) = .error () := by decide +kernel
  rw [this] at h
  cases h

/-- `ORDER BY COUNT` reads the value number 2³² - 1 of the rows: anything can be returned, for all rows that have fewer values. -/
theorem C89_count_violated (E : Env) (values : List Nat) (desc : Bool) (rows : List Row) (hne : rows ≠ []) (hl : ∀ r ∈ rows, r.2.length < 2 ^ 32) :
    ∀ out, Returns E (keys values [(none, desc)]) rows out := fun _ => .undefined fun h => by
  match rows, hne with
  | r :: rows, _ =>
    have := h.irrefl r List.mem_cons_self
    have e : r.2[2 ^ 32 - 1]? = none := List.getElem?_eq_none (by have := hl r List.mem_cons_self; omega)
    simp only [keys, List.map_cons, List.map_nil, less, e] at this
    rw [if_pos (by decide)] at this
    cases this

/-- So does a variable that has no register. -/
theorem C89_absent_violated (E : Env) (values : List Nat) (x : Nat) (hx : x ∉ values) (desc : Bool) (rows : List Row) (hne : rows ≠ []) (hl : ∀ r ∈ rows, r.2.length < 2 ^ 32) :
    ∀ out, Returns E (keys values [(some x, desc)]) rows out := by
  have e : keys values [(some x, desc)] = keys values [(none, desc)] := by
    have : values.idxOf? x = none := by rw [List.idxOf?_eq_none_iff]; exact hx
    simp [keys, this]
  rw [e]
  exact C89_count_violated E values desc rows hne hl

/-- A column with integers that were computed and with terms of the dictionary: the comparison is not a strict weak order, and anything can be returned. -/
theorem C89_mixed_violated : ∀ out, Returns (exEnv false) [⟨0, false⟩] [(1, [2 ^ 62]), (1, [0]), (1, [2 ^ 62 + 1])] out := fun _ => .undefined fun h => by
  have := (h.equiv (1, [2 ^ 62]) (by simp) (1, [0]) (by simp) (1, [2 ^ 62 + 1]) (by simp) (by decide +kernel) (by decide +kernel) (by decide +kernel) (by decide +kernel)).1
  have e : less (exEnv false) [⟨0, false⟩] (1, [2 ^ 62]) (1, [2 ^ 62 + 1]) = .ok true := by decide +kernel
  rw [e] at this
  cases this

/-- Numbers of the dictionary are sorted as texts (`"10"` before `"9"`); literals come before IRIs; and an IRI can come before one that it continues (`<http://a/b>` before `<http://a>`).
SPARQL 1.1 (15.1) asks for the opposite of each. -/
theorem C89_terms_violated :
    (∀ out, Returns (exEnv false) [⟨0, false⟩] [(1, [3]), (1, [2])] out → out.map (fun r => r.2.map (exEnv false).text) = [[some (str "\"10\"")], [some (str "\"9\"")]]) ∧
    (∀ out, Returns (exEnv false) [⟨0, false⟩] [(1, [0]), (1, [3])] out → out.map (fun r => r.2.map (exEnv false).text) = [[some (str "\"9\"")], [some (str "<http://b>")]]) ∧
    (∀ out, Returns (exEnv false) [⟨0, false⟩] [(1, [1]), (1, [4])] out →
      out.map (fun r => r.2.map (exEnv false).text) = [[some (str "<http://a/b>")], [some (str "<http://a>")]]) := by
  refine ⟨fun out h => ?_, fun out h => ?_, fun out h => ?_⟩
  all_goals
    rw [two (valid_two (by decide +kernel) (by decide +kernel) (by decide +kernel) (by decide +kernel)) (List.Perm.swap _ _ _) (by decide +kernel) h]
    decide +kernel

end Trident.Sparql.OrderBy
