import Verif.Sparql.JsonOutput
import Verif.Sparql.JsonOutputProofs
import Verif.Props.OrderQuery
/-!
# C86 and C89: terms in the lines of the output

`RunOn` and `RunSorted` have the texts of the dictionary.  Here the texts are those that `CacheEntry::print` writes for them.
-/
namespace Trident.Sparql.Parse

open Lex Spec
open Select (Expr Lib Dict)

variable {F : Type} {P : Lib F} {get : GetNumber} {dict : Dict} {graph : List (Term × Term × Term)} {db : List PlanGen.Triple}

/-- The cells of lines as they are written (/repo/rdf3x/src/rts/ResultsPrinter.cpp:313-329 and 139-161).  The blanks, tabs and line breaks between them are not modelled. -/
def printCells (lines : List (List (Option Text))) : List (List (Option Text)) := lines.map fun r => r.map (Option.map shownTerm)

/-- No answer has a blank node. -/
def Spec.NoBlank (l : List (List (Option Term))) : Prop := ∀ r ∈ l, ∀ b, some (.blank b) ∉ r

theorem shownTerm_text {t : Term} (h : ∀ b, t ≠ .blank b) : shownTerm t.text = t.text := by
  cases t with
  | blank b => exact (h b rfl).elim
  | iri v => simp [Term.text, shownTerm]
  | plain v => rfl
  | lang v l => rfl
  | typed v d => rfl

theorem printCells_id {a : List (List (Option Term))} (h : NoBlank a) {out : List (List (Option Text))} (ho : ∀ r ∈ out, ∃ s ∈ a, ∃ n, r = (line s).take n) : printCells out = out := by
  unfold printCells
  conv => rhs; rw [← List.map_id out]
  refine List.map_congr_left fun r hr => ?_
  obtain ⟨s, hs, n, rfl⟩ := ho r hr
  conv => rhs; rw [id, ← List.map_id (List.take n (line s))]
  refine List.map_congr_left fun c hc => ?_
  have hc := List.mem_of_mem_take hc
  obtain ⟨o, ho, rfl⟩ := List.mem_map.1 hc
  cases o with
  | none => rfl
  | some t =>
    simp only [Option.map_some, id, Option.some.injEq]
    exact shownTerm_text fun b e => h s hs b (e ▸ ho)

theorem slice_mem {α : Type} {o : Nat} {n : Option Nat} {l : List α} {x : α} (h : x ∈ Trident.Sparql.Spec.sliceOpt o n l) : x ∈ l := by
  cases n with
  | none => exact List.mem_of_mem_drop h
  | some n => exact List.mem_of_mem_drop (List.mem_of_mem_take h)

/-- **C86 (SELECT, what is written, part).** `C86_select_partial` with the texts that are written.  Missing: as there, and blank nodes (`C86_blank_violated`). -/
theorem C86_print_partial (E : PlanGen.Est) (hE : E.Fair) (hst : Stored P get dict) (hr : ReadsIntegers P) (hload : Loaded get graph db) (W : QueryWords) (q : SQuery)
    {slice : List Tok} {text : Text} (hprefixes : W.prefixes.length = q.prefixes.length ∧ (∀ p ∈ q.prefixes, 92 ∉ p.2) ∧ (q.prefixes.map (·.1)).Nodup)
    (hgroup : GroupOk P get graph q.prefixes q.pat) (htied : q.Tied) (hslice : SliceToks W slice q.limit q.offset) (hnames : ∀ l, q.columns = .names l → l ≠ [] ∧ ∀ x ∈ l, x ∈ q.pat.vars)
    (hdistinct : q.distinct = false) (htext : Written text (q.toks W slice)) :
    ∃ columns, q.Shows columns ∧ ((q.limit = none → (answers P q.prefixes graph q.pat columns).length < 2 ^ 32) → NoBlank (answers P q.prefixes graph q.pat columns) →
      (∃ out, Run E P get dict db text out) ∧
      ∀ out, Run E P get dict db text out → ∃ l, l.Perm ((answers P q.prefixes graph q.pat columns).map line) ∧ printCells out = Trident.Sparql.Spec.sliceOpt q.offset q.limit l) := by
  obtain ⟨columns, hc, hrun⟩ := C86_select_partial E hE hst hr hload W q hprefixes hgroup htied hslice hnames hdistinct htext
  refine ⟨columns, hc, fun hlen hb => ⟨(hrun hlen).1, fun out ho => ?_⟩⟩
  obtain ⟨l, h1, h2⟩ := (hrun hlen).2 out ho
  refine ⟨l, h1, ?_⟩
  rw [← h2]
  refine printCells_id hb fun r hr => ?_
  rw [h2] at hr
  obtain ⟨s, hs, e⟩ := List.mem_map.1 (h1.mem_iff.1 (slice_mem hr))
  exact ⟨s, hs, (line s).length, by rw [List.take_length, e]⟩

/-- **C86 (SELECT DISTINCT, what is written, part).** `C86_distinct_partial` with the texts that are written.  Missing: as there, and blank nodes (`C86_blank_violated`). -/
theorem C86_print_distinct_partial (E : PlanGen.Est) (hE : E.Fair) (hst : Stored P get dict) (hr : ReadsIntegers P) (hload : Loaded get graph db) (W : QueryWords) (q : SQuery)
    {slice : List Tok} {text : Text} (hprefixes : W.prefixes.length = q.prefixes.length ∧ (∀ p ∈ q.prefixes, 92 ∉ p.2) ∧ (q.prefixes.map (·.1)).Nodup)
    (hgroup : GroupOk P get graph q.prefixes q.pat) (htied : q.Tied) (hslice : SliceToks W slice q.limit 0) (hoffset : q.offset = 0)
    (hnames : ∀ l, q.columns = .names l → l ≠ [] ∧ ∀ x ∈ l, x ∈ q.pat.vars) (hdistinct : q.distinct = true) (htext : Written text (q.toks W slice)) :
    ∃ columns, q.Shows columns ∧ ((q.limit = none → (answers P q.prefixes graph q.pat columns).length < 2 ^ 32) → NoBlank (answers P q.prefixes graph q.pat columns) →
      (∃ out, Run E P get dict db text out) ∧
      ∀ out, Run E P get dict db text out → ∃ l, l.Nodup ∧ (∀ r, r ∈ l ↔ r ∈ (answers P q.prefixes graph q.pat columns).map line) ∧
        printCells out = Trident.Sparql.Spec.sliceOpt 0 q.limit l) := by
  obtain ⟨columns, hc, hrun⟩ := C86_distinct_partial E hE hst hr hload W q hprefixes hgroup htied hslice hoffset hnames hdistinct htext
  refine ⟨columns, hc, fun hlen hb => ⟨(hrun hlen).1, fun out ho => ?_⟩⟩
  obtain ⟨l, h0, h1, h2⟩ := (hrun hlen).2 out ho
  refine ⟨l, h0, h1, ?_⟩
  rw [← h2]
  refine printCells_id hb fun r hr => ?_
  rw [h2] at hr
  obtain ⟨s, hs, e⟩ := List.mem_map.1 ((h1 r).1 (slice_mem hr))
  exact ⟨s, hs, (line s).length, by rw [List.take_length, e]⟩

/-- **C89 (SELECT with ORDER BY, what is written, part).** `C89_query_partial` with the texts that are written.  Missing: as there, and blank nodes (`C86_blank_violated`). -/
theorem C89_print_partial {V : OrderBy.Env} (E : PlanGen.Est) (hE : E.Fair) (hst : Stored P get V.text) (hstale : V.stale = false) (hr : ReadsIntegers P) (hload : Loaded get graph db) (W : QueryWords)
    (O : OrderWords) (ks : List SKey) (q : SQuery)
    {slice : List Tok} {text : Text} (hprefixes : W.prefixes.length = q.prefixes.length ∧ (∀ p ∈ q.prefixes, 92 ∉ p.2) ∧ (q.prefixes.map (·.1)).Nodup)
    (hgroup : GroupOk P get graph q.prefixes q.pat) (htied : q.Tied) (hslice : SliceToks W slice q.limit q.offset) (hnames : ∀ l, q.columns = .names l → l ≠ [] ∧ ∀ x ∈ l, x ∈ q.pat.vars)
    (hdistinct : q.distinct = false) (hne : ks ≠ []) (hks : ∀ k ∈ ks, k.name ∈ q.pat.vars) (htext : Written text (q.toks W (orderToks O ks ++ slice))) :
    ∃ columns, q.Shows columns ∧ ((q.limit = none → (answers P q.prefixes graph q.pat columns).length < 2 ^ 32) → NoBlank (answers P q.prefixes graph q.pat (columns ++ ks.map SKey.name)) →
      (∃ out, RunSorted E P get V (PlanGen.ScanRows db) text out) ∧
      ∀ out, RunSorted E P get V (PlanGen.ScanRows db) text out → ∃ l, l.Perm ((answers P q.prefixes graph q.pat (columns ++ ks.map SKey.name)).map line) ∧ InOrder columns.length ks l ∧
        printCells out = (Trident.Sparql.Spec.sliceOpt q.offset q.limit l).map (·.take columns.length)) := by
  obtain ⟨columns, hc, hrun⟩ := C89_query_partial E hE hst hstale hr hload W O ks q hprefixes hgroup htied hslice hnames hdistinct hne hks htext
  refine ⟨columns, hc, fun hlen hb => ⟨(hrun hlen).1, fun out ho => ?_⟩⟩
  obtain ⟨l, h1, h2, h3⟩ := (hrun hlen).2 out ho
  refine ⟨l, h1, h2, ?_⟩
  rw [← h3]
  refine printCells_id hb fun r hr => ?_
  rw [h3] at hr
  obtain ⟨r', hr', rfl⟩ := List.mem_map.1 hr
  obtain ⟨s, hs, e⟩ := List.mem_map.1 (h1.mem_iff.1 (slice_mem hr'))
  exact ⟨s, hs, _, by rw [e]⟩

/-- The answers of the example have no blank nodes. -/
example : NoBlank (answers intLib preE graph2 pat4 [str "s", str "v"]) := by
  have h : ((answers intLib preE graph2 pat4 [str "s", str "v"]).all fun r => r.all fun c => c.all fun t => match t with | .blank _ => false | _ => true) = true := by decide +kernel
  intro r hr b hb
  rw [List.all_eq_true] at h
  have h := h r hr
  rw [List.all_eq_true] at h
  have h := h _ hb
  simp at h

/-- The texts of the cells of the example are those of the dictionary. -/
example : printCells [[some (str "<http://a>"), some (str "\"x\"")]] = [[some (str "<http://a>"), some (str "\"x\"")]] := by decide +kernel

/-- **Blank nodes are written as literals**: a blank node and the literal with its text are written in the same way, although they are different terms with different texts. -/
theorem C86_blank_violated : ∃ t u : Term, t.Ok ∧ u.Ok ∧ t.text ≠ u.text ∧ printCells [[some t.text]] = printCells [[some u.text]] :=
  ⟨.blank (str "b"), .plain (str "_:b"), show 62 ∉ str "b" by decide +kernel, show quoted (str "_:b") = true by decide +kernel, by decide +kernel, by decide +kernel⟩

end Trident.Sparql.Parse
