import Verif.Props.QueryText
import Verif.Props.IndexScan
/-!
# C86: queries over a loaded store

The theorems of `Verif.Props.QueryText`, with the scans of the store that the loader writes: from the ids of triples and the text of a query to the lines of its output.
`graph` are the triples of terms, each once; `g` the ids that are loaded, each as often as it is read.
-/
namespace Trident.Sparql.Parse

open Lex Spec
open Select (Expr Lib Dict)

variable {F : Type} {P : Lib F} {get : GetNumber} {dict : Dict} {graph : List (Term × Term × Term)} {db : List PlanGen.Triple}

/-- The scans of the store that is opened after the triples `g` were loaded. -/
abbrev loadedScans (c : Load.Config) (g : List Load.T3) (m : Mem) (M : Nat → Load.Maps) (V : Env) (srt : List Int → List Int) : Scans :=
  PlanGen.storeScans ((c.open' g m M).getIterator V) ((c.open' g m M).getIteratorD V) ((c.open' g m M).terms V srt (c.counts g).nel)

theorem scansOf_load (c : Load.Config) (g : List Load.T3) (h : c.Ok g) (hg : g ≠ []) (hall : c.nindices = 3 ∨ c.nindices = 6) {m : Mem} {M : Nat → Load.Maps}
    (hM : ∀ i, i < 6 → Load.Mapped m (M i) (c.ins g i).store.files) (V : Env) (hV : SortsPairs V.sortP) (hf : g.length < V.fuel) (srt : List Int → List Int)
    (hnd : db.Nodup) (hdb : ∀ t, t ∈ db ↔ t ∈ g) (q : PlanGen.Query) (hvars : ∀ n ∈ q.nodes, n.vars.Nodup) : PlanGen.ScansOf (loadedScans c g m M V srt q) db q := by
  have hr : ∀ d, (c.open' g m M).Reads d := by
    intro d
    unfold KB.Reads
    show Load.permsOf c.nindices d.idx = true ∨ d.idx ≥ 3 ∧ Load.permsOf c.nindices (d.idx - 3) = true
    rcases hall with e | e <;> rw [e] <;> cases d <;> decide
  have hl := h.loaded hM
  have hne' : g.map Load.T3.triple ≠ [] := by simpa using hg
  have hn : (db.map Scan.cast).Nodup := by
    rw [List.Nodup, List.pairwise_map]
    exact hnd.imp fun h e => h (Scan.cast_inj e)
  have hmem : ∀ t, t ∈ db.map Scan.cast ↔ t ∈ g.map Load.T3.triple := by
    intro t
    rw [List.mem_map, List.mem_map]
    exact ⟨fun ⟨d, hd, e⟩ => ⟨d, (hdb d).1 hd, e⟩, fun ⟨d, hd, e⟩ => ⟨d, (hdb d).2 hd, e⟩⟩
  refine PlanGen.scansOf_store (Join.answers_stored hl hV (by simpa using hf) hne' hr) (G := (· ∈ g.map Load.T3.triple)) ⟨hnd, fun t => ?_⟩
    (answersD_stored hl hV (by simpa using hf) hne' hr hn hmem) (answersT_stored c g h hg hM V srt hn hmem hr) hvars
  rw [← hmem, List.mem_map]
  exact ⟨fun ⟨d, hd, e⟩ => ⟨d, hd, e.symm⟩, fun ⟨d, hd, e⟩ => ⟨d, hd, e.symm⟩⟩

/-- **C86 (SELECT over a loaded store, part).** Load triples with three or six indices, open the store and run the text of a SELECT query: there is an output, and each output is
the part that LIMIT and OFFSET say of a list of the answers over the triples.  Missing: as for `C86_select_partial`. -/
theorem C86_load_select_partial (c : Load.Config) (g : List Load.T3) (h : c.Ok g) (hg : g ≠ []) (hall : c.nindices = 3 ∨ c.nindices = 6) {m : Mem} {M : Nat → Load.Maps}
    (hM : ∀ i, i < 6 → Load.Mapped m (M i) (c.ins g i).store.files) (V : Env) (hV : SortsPairs V.sortP) (hf : g.length < V.fuel) (srt : List Int → List Int)
    (hnd : db.Nodup) (hdb : ∀ t, t ∈ db ↔ t ∈ g)
    (E : PlanGen.Est) (hE : E.Fair) (hst : Stored P get dict) (hr : ReadsIntegers P) (hload : Loaded get graph db) (W : QueryWords) (q : SQuery)
    {slice : List Tok} {text : Text} (hprefixes : W.prefixes.length = q.prefixes.length ∧ (∀ p ∈ q.prefixes, 92 ∉ p.2) ∧ (q.prefixes.map (·.1)).Nodup)
    (hgroup : GroupOk P get graph q.prefixes q.pat) (htied : q.Tied) (hslice : SliceToks W slice q.limit q.offset) (hnames : ∀ l, q.columns = .names l → l ≠ [] ∧ ∀ x ∈ l, x ∈ q.pat.vars)
    (hdistinct : q.distinct = false) (htext : Written text (q.toks W slice)) :
    ∃ columns, q.Shows columns ∧ ((q.limit = none → (answers P q.prefixes graph q.pat columns).length < 2 ^ 32) →
      (∃ out, RunOn E P get dict (loadedScans c g m M V srt) text out) ∧
      ∀ out, RunOn E P get dict (loadedScans c g m M V srt) text out →
        ∃ l, l.Perm ((answers P q.prefixes graph q.pat columns).map line) ∧ out = Trident.Sparql.Spec.sliceOpt q.offset q.limit l) :=
  select_on E hE hst hr hload W q hprefixes hgroup htied hslice hnames hdistinct htext (scansOf_load c g h hg hall hM V hV hf srt hnd hdb)

/-- **C86 (SELECT DISTINCT over a loaded store, part).**  Missing: as for `C86_distinct_partial`. -/
theorem C86_load_distinct_partial (c : Load.Config) (g : List Load.T3) (h : c.Ok g) (hg : g ≠ []) (hall : c.nindices = 3 ∨ c.nindices = 6) {m : Mem} {M : Nat → Load.Maps}
    (hM : ∀ i, i < 6 → Load.Mapped m (M i) (c.ins g i).store.files) (V : Env) (hV : SortsPairs V.sortP) (hf : g.length < V.fuel) (srt : List Int → List Int)
    (hnd : db.Nodup) (hdb : ∀ t, t ∈ db ↔ t ∈ g)
    (E : PlanGen.Est) (hE : E.Fair) (hst : Stored P get dict) (hr : ReadsIntegers P) (hload : Loaded get graph db) (W : QueryWords) (q : SQuery)
    {slice : List Tok} {text : Text} (hprefixes : W.prefixes.length = q.prefixes.length ∧ (∀ p ∈ q.prefixes, 92 ∉ p.2) ∧ (q.prefixes.map (·.1)).Nodup)
    (hgroup : GroupOk P get graph q.prefixes q.pat) (htied : q.Tied) (hslice : SliceToks W slice q.limit 0) (hoffset : q.offset = 0)
    (hnames : ∀ l, q.columns = .names l → l ≠ [] ∧ ∀ x ∈ l, x ∈ q.pat.vars) (hdistinct : q.distinct = true) (htext : Written text (q.toks W slice)) :
    ∃ columns, q.Shows columns ∧ ((q.limit = none → (answers P q.prefixes graph q.pat columns).length < 2 ^ 32) →
      (∃ out, RunOn E P get dict (loadedScans c g m M V srt) text out) ∧
      ∀ out, RunOn E P get dict (loadedScans c g m M V srt) text out → ∃ l, l.Nodup ∧ (∀ r, r ∈ l ↔ r ∈ (answers P q.prefixes graph q.pat columns).map line) ∧
        out = Trident.Sparql.Spec.sliceOpt 0 q.limit l) :=
  distinct_on E hE hst hr hload W q hprefixes hgroup htied hslice hoffset hnames hdistinct htext (scansOf_load c g h hg hall hM V hV hf srt hnd hdb)

/-! ## Examples -/

/-- The triples of the example of `Verif.Props.QueryText`, one of them twice. -/
def g2 : List Load.T3 := [(2, 0, 4), (2, 0, 5), (3, 0, 6), (2, 1, 7), (2, 0, 4), (3, 1, 7)]

theorem ok2 : exConfig.Ok g2 where
  sort := sortRows_sorts
  nindices := by decide
  skip := by decide
  fixed := .inl rfl
  ids := by decide
  len := by decide
  nfiles := by
    intro i
    by_cases hi : i < 6
    · have : ∀ i, i < 6 → (exConfig.ins g2 i).store.files.length ≤ 2 ^ 15 := by decide +kernel
      exact this i hi
    · have : ¬ Load.permsOf 6 i = true := fun h => hi (Load.permsOf_lt h)
      rw [Load.ins_neg this]; decide
  fsize := by
    intro i
    by_cases hi : i < 6
    · have : ∀ i, i < 6 → ∀ f ∈ (exConfig.ins g2 i).store.files, f.bytes.length < 2 ^ 40 := by decide +kernel
      exact this i hi
    · have : ¬ Load.permsOf 6 i = true := fun h => hi (Load.permsOf_lt h)
      rw [Load.ins_neg this]; decide

/-- The output of `SELECT ?s ?v WHERE { ?s e:p ?o ; e:q ?v FILTER(?o < 10) } OFFSET 1 LIMIT 5` over the loaded example is one of its two answers. -/
example : ∃ (m : Mem) (M : Nat → Load.Maps), (∀ i, i < 6 → Load.Mapped m (M i) (exConfig.ins g2 i).store.files) ∧
    ∃ out, RunOn PlanGen.exampleEst intLib (ofTerms cells2) (dictOf cells2) (loadedScans exConfig g2 m M ⟨isort, msort, 100⟩ sortInts)
      (printAll (query4.toks capsQuery [ident (str "OFFSET"), int1 "1", ident (str "LIMIT"), int1 "5"])) out ∧ out.length = 1 := by
  obtain ⟨m, M, hM⟩ := Load.exists_mapped fun i => (exConfig.ins g2 i).store.files
  have hmem : ∀ t, t ∈ db2 ↔ t ∈ g2 := by
    have h1 : ∀ t ∈ db2, t ∈ g2 := by decide
    have h2 : ∀ t ∈ g2, t ∈ db2 := by decide
    exact fun t => ⟨h1 t, h2 t⟩
  obtain ⟨columns, hc, hrun⟩ := C86_load_select_partial exConfig g2 ok2 (by decide) (.inr rfl) hM ⟨isort, msort, 100⟩ isort_sorts (show 6 < 100 by omega) sortInts (by decide) hmem
    PlanGen.exampleEst fairEst cells2_stored intLib_reads loaded2 capsQuery query4 ⟨rfl, by decide +kernel, by decide⟩ pat4_group tied4 slice4 names4 rfl
    (written_print (query4.toks capsQuery _) (by decide +kernel))
  have hc : columns = [str "s", str "v"] := hc
  subst hc
  obtain ⟨⟨out, ho⟩, hout⟩ := hrun nofun
  obtain ⟨l, hl, e⟩ := hout out ho
  refine ⟨m, M, hM, out, ho, ?_⟩
  have hlen := hl.length_eq
  have h2 : ((answers intLib query4.prefixes graph2 query4.pat [str "s", str "v"]).map line).length = 2 := by decide +kernel
  rw [h2] at hlen
  rw [e]
  simp [Trident.Sparql.Spec.sliceOpt, Trident.Sparql.Spec.slice, query4, hlen]

end Trident.Sparql.Parse
