import Verif.Props.StoreQuery
import Verif.Props.MinusQuery
/-!
# C104 and C105 over a loaded store

The theorems of `Verif.Props.UnionQuery` and `Verif.Props.MinusQuery`, with the scans of the store that the loader writes.  `g` are the ids that are loaded, each triple as often as it is read; `db` has each of them once.
-/
namespace Trident.Sparql.PlanGen
open Parse (loadedScans scansOf_load)
open Spec (In Everywhere Elsewhere)

variable {db : List Triple}

theorem loaded_range {c : Load.Config} {g : List Load.T3} (h : c.Ok g) (hdb : ∀ t, t ∈ db ↔ t ∈ g) : ∀ t ∈ db, t.1 < 2 ^ 64 ∧ t.2.1 < 2 ^ 64 ∧ t.2.2 < 2 ^ 64 := by
  intro t ht
  have := h.ids t ((hdb t).1 ht)
  omega

/-- **C104 (UNION over a loaded store, part).** Load triples with three or six indices and open the store: a query with a UNION gets a plan, which can be executed with the scans of the store, and what is printed are the answers over the
triples.  Missing: as for `C104_union_partial`. -/
theorem C104_load_union_partial (c : Load.Config) (g : List Load.T3) (h : c.Ok g) (hg : g ≠ []) (hall : c.nindices = 3 ∨ c.nindices = 6) {m : Mem} {M : Nat → Load.Maps}
    (hM : ∀ i, i < 6 → Load.Mapped m (M i) (c.ins g i).store.files) (V : Env) (hV : SortsPairs V.sortP) (hf : g.length < V.fuel) (srt : List Int → List Int)
    (hnd : db.Nodup) (hdb : ∀ t, t ∈ db ↔ t ∈ g)
    (E : Est) (U : UEst E) (hE : E.Fair) (hU : UEst.Fair E U)
    (u : UQuery) (h2 : 2 ≤ u.parts.length) (hne : ∀ p ∈ u.parts, p.1 ≠ []) (hwidth : ∀ p ∈ u.parts, p.1.length ≤ 64) (hvars : ∀ p ∈ u.parts, ∀ n ∈ p.1, n.vars.Nodup)
    (htied : ∀ i < u.parts.length, Spec.Tied (part u i))
    (hfilters : ∀ f, f ∈ u.filters ∨ (∃ p ∈ u.parts, f ∈ p.2) → ∀ g g' : Nat → Option Nat, (∀ x ∈ f.vars, g x = g' x) → f.holds g = f.holds g')
    (hsafe : ∀ p ∈ u.parts, ∀ f ∈ p.2, Spec.Safe db p.1 f) (hsafe' : ∀ f ∈ u.filters, Spec.Safe db (u.parts.flatMap (·.1)) f)
    (heverywhere : ∀ f ∈ u.filters, ∀ x ∈ f.vars, Everywhere u x) (hproj : ∀ x ∈ u.projection, Everywhere u x) :
    ∃ p, translateUnion E U u = .plans p ∧ (∃ out, UAnswersOn (loadedScans c g m M V srt) u p out) ∧
      ∀ out, UAnswersOn (loadedScans c g m M V srt) u p out → (out.flatMap fun r => List.replicate r.1 r.2).Perm (Spec.unionAnswers db u) :=
  union_on E U hE hU db (loaded_range h hdb) (scansOf_load c g h hg hall hM V hV hf srt hnd hdb) u h2 hne hwidth hvars htied hfilters hsafe hsafe' heverywhere hproj

/-- **C105 (MINUS over a loaded store, part).** Load triples with three or six indices and open the store: a query with MINUS gets a plan, which can be executed with the scans of the store, and what is printed are the answers over the
triples.  Missing: as for `C105_minus_partial`. -/
theorem C105_load_minus_partial (c : Load.Config) (g : List Load.T3) (h : c.Ok g) (hg : g ≠ []) (hall : c.nindices = 3 ∨ c.nindices = 6) {mem : Mem} {M : Nat → Load.Maps}
    (hM : ∀ i, i < 6 → Load.Mapped mem (M i) (c.ins g i).store.files) (V : Env) (hV : SortsPairs V.sortP) (hf : g.length < V.fuel) (srt : List Int → List Int)
    (hnd : db.Nodup) (hdb : ∀ t, t ∈ db ↔ t ∈ g)
    (E : Est) (hE : E.Fair) (s : Stale E) (hs : s.next = [])
    (m : MQuery) (hne : m.nodes ≠ []) (hwidth : m.nodes.length ≤ 64) (hne' : ∀ g ∈ m.minuses, g.1 ≠ []) (hwidth' : ∀ g ∈ m.minuses, g.1.length ≤ 64)
    (hvars : ∀ n ∈ m.nodes, n.vars.Nodup) (hvars' : ∀ g ∈ m.minuses, ∀ n ∈ g.1, n.vars.Nodup) (htied : Spec.Tied m.main) (htied' : ∀ k < m.minuses.length, Spec.Tied (minusPart m k))
    (hfilters : ∀ f, f ∈ m.filters ∨ (∃ g ∈ m.minuses, f ∈ g.2) → ∀ g g' : Nat → Option Nat, (∀ x ∈ f.vars, g x = g' x) → f.holds g = f.holds g')
    (hsafe : ∀ f ∈ m.filters, Spec.Safe db m.nodes f) (hsafe' : ∀ g ∈ m.minuses, ∀ f ∈ g.2, Spec.Safe db g.1 f)
    (hcommon : ∀ g ∈ m.minuses, ∃ x, In x m.nodes ∧ In x g.1)
    (hused : ∀ g ∈ m.minuses, ∀ x, In x g.1 → ∀ i n, m.nodes[i]? = some n → .var x ∈ [n.1, n.2.1, n.2.2] → Elsewhere m.main i x)
    (hinner : ∀ g ∈ m.minuses, ∀ x, Spec.Twice g x → Spec.Outside m x)
    (htwo : m.minuses.Pairwise fun g g' => ∀ x, In x g.1 → In x g'.1 → In x m.nodes) :
    ∃ p, translateMinus E s m = .plans p ∧ (∃ out, MAnswersOn (loadedScans c g mem M V srt) m p out) ∧
      ∀ out, MAnswersOn (loadedScans c g mem M V srt) m p out → (out.flatMap fun r => List.replicate r.1 r.2).Perm (Spec.minusAnswers db m) :=
  minus_on E hE s hs db (loaded_range h hdb) (scansOf_load c g h hg hall hM V hV hf srt hnd hdb) m hne hwidth hne' hwidth' hvars hvars' htied htied' hfilters hsafe hsafe' hcommon hused hinner htwo

/-! ## Examples -/

theorem okUnion : exConfig.Ok exampleUnionDb where
  sort := sortRows_sorts
  nindices := by decide
  skip := by decide
  fixed := .inl rfl
  ids := by decide
  len := by decide
  nfiles := by
    intro i
    by_cases hi : i < 6
    · have : ∀ i, i < 6 → (exConfig.ins exampleUnionDb i).store.files.length ≤ 2 ^ 15 := by decide +kernel
      exact this i hi
    · have : ¬ Load.permsOf 6 i = true := fun h => hi (Load.permsOf_lt h)
      rw [Load.ins_neg this]; decide
  fsize := by
    intro i
    by_cases hi : i < 6
    · have : ∀ i, i < 6 → ∀ f ∈ (exConfig.ins exampleUnionDb i).store.files, f.bytes.length < 2 ^ 40 := by decide +kernel
      exact this i hi
    · have : ¬ Load.permsOf 6 i = true := fun h => hi (Load.permsOf_lt h)
      rw [Load.ins_neg this]; decide

theorem okMinus : exConfig.Ok exampleMinusDb where
  sort := sortRows_sorts
  nindices := by decide
  skip := by decide
  fixed := .inl rfl
  ids := by decide
  len := by decide
  nfiles := by
    intro i
    by_cases hi : i < 6
    · have : ∀ i, i < 6 → (exConfig.ins exampleMinusDb i).store.files.length ≤ 2 ^ 15 := by decide +kernel
      exact this i hi
    · have : ¬ Load.permsOf 6 i = true := fun h => hi (Load.permsOf_lt h)
      rw [Load.ins_neg this]; decide
  fsize := by
    intro i
    by_cases hi : i < 6
    · have : ∀ i, i < 6 → ∀ f ∈ (exConfig.ins exampleMinusDb i).store.files, f.bytes.length < 2 ^ 40 := by decide +kernel
      exact this i hi
    · have : ¬ Load.permsOf 6 i = true := fun h => hi (Load.permsOf_lt h)
      rw [Load.ins_neg this]; decide

/-- The example of `Verif.Props.UnionQuery`, over the loaded triples: there are four lines. -/
example : ∃ (m : Mem) (M : Nat → Load.Maps) (p : UPlan) (out : List (Nat × List (Option Nat))), (∀ i, i < 6 → Load.Mapped m (M i) (exConfig.ins exampleUnionDb i).store.files) ∧
    translateUnion exampleEst exampleUEst exampleUnion = .plans p ∧ UAnswersOn (loadedScans exConfig exampleUnionDb m M ⟨isort, msort, 100⟩ sortInts) exampleUnion p out ∧
    (out.flatMap fun r => List.replicate r.1 r.2).length = 4 := by
  obtain ⟨m, M, hM⟩ := Load.exists_mapped fun i => (exConfig.ins exampleUnionDb i).store.files
  obtain ⟨h1, h2, _, h4, h5, h6, h7, h8, h9, h10, h11, h12, h13⟩ := exampleUnion_ok
  obtain ⟨p, a, ⟨out, b⟩, e⟩ := C104_load_union_partial exConfig exampleUnionDb okUnion (by decide) (.inr rfl) hM ⟨isort, msort, 100⟩ isort_sorts (show 7 < 100 by omega) sortInts (by decide) (fun _ => Iff.rfl)
    exampleEst exampleUEst h1 h2 exampleUnion h4 h5 h6 h7 h8 h9 h10 h11 h12 h13
  refine ⟨m, M, p, out, hM, a, b, ?_⟩
  rw [(e out b).length_eq]
  decide +kernel

/-- The example of `Verif.Props.MinusQuery`, over the loaded triples: there are four lines. -/
example : ∃ (m : Mem) (M : Nat → Load.Maps) (p : MPlan) (out : List (Nat × List (Option Nat))), (∀ i, i < 6 → Load.Mapped m (M i) (exConfig.ins exampleMinusDb i).store.files) ∧
    translateMinus exampleEst ⟨(0 : Nat), []⟩ exampleMinus = .plans p ∧ MAnswersOn (loadedScans exConfig exampleMinusDb m M ⟨isort, msort, 100⟩ sortInts) exampleMinus p out ∧
    (out.flatMap fun r => List.replicate r.1 r.2).length = 4 := by
  obtain ⟨m, M, hM⟩ := Load.exists_mapped fun i => (exConfig.ins exampleMinusDb i).store.files
  obtain ⟨h1, _, h3, h4, h5, h6, h7, h8, h9, h10, h11, h12, h13, h14, h15, h16, h17⟩ := exampleMinus_ok
  obtain ⟨p, a, ⟨out, b⟩, e⟩ := C105_load_minus_partial exConfig exampleMinusDb okMinus (by decide) (.inr rfl) hM ⟨isort, msort, 100⟩ isort_sorts (show 10 < 100 by omega) sortInts (by decide) (fun _ => Iff.rfl)
    exampleEst h1 ⟨(0 : Nat), []⟩ rfl exampleMinus h3 h4 h5 h6 h7 h8 h9 h10 h11 h12 h13 h14 h15 h16 h17
  refine ⟨m, M, p, out, hM, a, b, ?_⟩
  rw [(e out b).length_eq]
  decide +kernel

end Trident.Sparql.PlanGen
