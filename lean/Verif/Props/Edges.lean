import Verif.Query.EdgesProofs
import Verif.Props.Counts
/-!
# C114, C115 and C116: edges, groups and positions

The store is a predicate on triples; `Join.Answers get G` says that the querier answers from it (`answers_stored` and `answers_updated` in `Verif.Props.Scan` prove it for stores that were loaded and
updated).  A function `edg_*` is given by the order that its name spells, with `s`, `r` and `d` for subject, predicate and object: `edg_srd` is `spo`.
-/
namespace Trident.Edges
open Load
open Join (Answers)

/-- The triple has the terms of the query. -/
def Fits (s r d : Int) (t : Triple) : Prop := (0 ≤ s → t.s = s) ∧ (0 ≤ r → t.p = r) ∧ (0 ≤ d → t.o = d)

/-- No variable occurs twice. -/
def Distinct (s r d : Int) : Prop := (s < 0 → r ≠ s ∧ d ≠ s) ∧ (r < 0 → d ≠ r)

theorem sameVar_none {s r d : Int} (h : Distinct s r d) : sameVar s r d = none := by
  unfold sameVar
  rw [if_neg (fun g => (h.1 g.1).1 g.2), if_neg (fun g => (h.1 g.1).2 g.2), if_neg (fun g => h.2 g.1 g.2)]

/-- A term or a variable as a position of a pattern. -/
def opt (x : Int) : Option Int := if x < 0 then none else some x

theorem clamp_eq (x : Int) : clamp x = argOfPos (opt x) := by
  unfold clamp argOfPos opt
  split <;> rfl

theorem matches_iff {s r d : Int} {t : Triple} : (Pattern.mk (opt s) (opt r) (opt d)).Matches t ↔ Fits s r d t := by
  have key : ∀ x v : Int, (∀ w ∈ opt x, v = w) ↔ (0 ≤ x → v = x) := by
    intro x v
    unfold opt
    split
    · simp; omega
    · simp; omega
  constructor
  · intro h
    exact ⟨(key _ _).1 (h .s), (key _ _).1 (h .p), (key _ _).1 (h .o)⟩
  · intro h x
    match x with
    | .s => exact (key _ _).2 h.1
    | .p => exact (key _ _).2 h.2.1
    | .o => exact (key _ _).2 h.2.2

theorem opt_some {x : Int} : (opt x).isSome ↔ 0 ≤ x := by
  unfold opt
  split <;> simp <;> omega

theorem wf_opt (s r d : Int) : (Pattern.mk (opt s) (opt r) (opt d)).Wf := by
  have key : ∀ x : Int, ∀ w ∈ opt x, 0 ≤ w := by
    intro x w h
    unfold opt at h
    split at h
    · cases h
    · cases h; omega
  intro x
  match x with
  | .s => exact key s
  | .p => exact key r
  | .o => exact key d

theorem bound_first (n : Order) (s r d : Int) :
    (((Pattern.mk (opt s) (opt r) (opt d)).at (edgeIndex n s r d).positions.2.1).isSome → ((Pattern.mk (opt s) (opt r) (opt d)).at (edgeIndex n s r d).positions.1).isSome) ∧
      (((Pattern.mk (opt s) (opt r) (opt d)).at (edgeIndex n s r d).positions.2.2).isSome → ((Pattern.mk (opt s) (opt r) (opt d)).at (edgeIndex n s r d).positions.2.1).isSome) := by
  cases n <;> unfold edgeIndex <;> simp only [] <;> repeat' split
  all_goals simp only [Order.positions, Pattern.at, opt_some]
  all_goals constructor <;> intro h <;> omega

/-- The rows of the iterator behind an edge iterator. -/
theorem rows_spec {get : Nat → Int → Int → Int → QRes} {G : Triple → Prop} (ha : Answers get G) (n : Order) (s r d : Int) :
    ∃ out o, get (edgeIndex n s r d).idx (clamp s) (clamp r) (clamp d) = .itr o ∧ o.Returns out ∧ out.Pairwise Row3.lt ∧
      ∀ x, x ∈ out ↔ ∃ t, G t ∧ Fits s r d t ∧ (edgeIndex n s r d).row t = x := by
  obtain ⟨out, o, h1, h2, h3, h4⟩ := ha ⟨opt s, opt r, opt d⟩ (edgeIndex n s r d) (wf_opt s r d) (bound_first n s r d).1 (bound_first n s r d).2
  refine ⟨out, o, by rw [clamp_eq, clamp_eq, clamp_eq]; exact h1, h2, h3, fun x => ?_⟩
  rw [h4 x]
  simp only [matches_iff]

theorem mem_triples {G : Triple → Prop} {n : Order} {out : List Row3} {s r d : Int} (h : ∀ x, x ∈ out ↔ ∃ t, G t ∧ Fits s r d t ∧ n.row t = x) (t : Triple) :
    t ∈ out.map (tripleAt n.idx) ↔ G t ∧ Fits s r d t := by
  rw [List.mem_map]
  constructor
  · rintro ⟨x, hx, rfl⟩
    obtain ⟨u, h1, h2, rfl⟩ := (h x).1 hx
    rw [tripleAt_row]
    exact ⟨h1, h2⟩
  · rintro ⟨h1, h2⟩
    exact ⟨n.row t, (h _).2 ⟨t, h1, h2, rfl⟩, tripleAt_row n t⟩

/-- The order of the index agrees with the order of the name. -/
theorem order_agrees (n : Order) {s r d : Int} {a b : Triple} (ha : Fits s r d a) (hb : Fits s r d b) (h : Row3.lt ((edgeIndex n s r d).row a) ((edgeIndex n s r d).row b)) : Row3.lt (n.row a) (n.row b) := by
  obtain ⟨a1, a2, a3⟩ := ha
  obtain ⟨b1, b2, b3⟩ := hb
  revert h
  cases n <;> unfold edgeIndex <;> simp only [] <;> repeat' split
  all_goals simp only [Row3.lt, Pair.lt, Order.row, Order.key, Order.pair, Order.positions, Triple.at]
  all_goals intro h
  all_goals omega

theorem sorted_triples {n : Order} {out : List Row3} {s r d : Int} {G : Triple → Prop} (hp : out.Pairwise Row3.lt)
    (h : ∀ x, x ∈ out ↔ ∃ t, G t ∧ Fits s r d t ∧ (edgeIndex n s r d).row t = x) : (out.map (tripleAt (edgeIndex n s r d).idx)).Pairwise fun a b => Row3.lt (n.row a) (n.row b) := by
  rw [List.pairwise_map]
  refine hp.imp_of_mem fun {x y} hx hy hxy => ?_
  obtain ⟨t, _, ht, rfl⟩ := (h x).1 hx
  obtain ⟨u, _, hu, rfl⟩ := (h y).1 hy
  rw [tripleAt_row, tripleAt_row]
  exact order_agrees n ht hu hxy

/-! ## C114 -/

/-- **C114 (edges, part).** Each of the six functions returns exactly the triples of the store with the terms of the query, each once, in the order of its name.
Missing: queries in which a variable occurs twice (`C114_subject_violated`, `C114_used_violated`, `C114_position_violated`). -/
theorem C114_edges_partial {get : Nat → Int → Int → Int → QRes} {G : Triple → Prop} (ha : Answers get G) (fuel : Nat) (old : Old) (n : Order) {s r d : Int} (hd : Distinct s r d) :
    ∃ e ts, edg get fuel old n s r d = some e ∧ e.Returns ts ∧ ts.Pairwise (fun a b => Row3.lt (n.row a) (n.row b)) ∧ ∀ t, t ∈ ts ↔ G t ∧ Fits s r d t := by
  obtain ⟨out, o, h1, h2, h3, h4⟩ := rows_spec ha n s r d
  refine ⟨⟨(edgeIndex n s r d).idx, o⟩, _, ?_, returns_edges h2, sorted_triples h3 h4, mem_triples h4⟩
  rw [edg, getEdgeItr, h1]
  simp only [sameVar_none hd]

/-- What is returned if a variable occurs twice and the memory has `hnc = false`. -/
theorem same_spec {get : Nat → Int → Int → Int → QRes} {G : Triple → Prop} (ha : Answers get G) (n : Order) {s r d : Int} {p : Nat × Nat} (hs : sameVar s r d = some p) (hn : Bool) (k : Int) :
    ∃ m, ∀ fuel ≥ m, ∃ (e : EdgeItr) (out : List Row3), edg get fuel ⟨hn, false, k⟩ n s r d = some e ∧ out.Pairwise Row3.lt ∧ (∀ x, x ∈ out ↔ ∃ t, G t ∧ Fits s r d t ∧ (edgeIndex n s r d).row t = x) ∧
      e.Returns (((out.filter (same p)).map fun x => (k, x.2)).map (tripleAt (edgeIndex n s r d).idx)) := by
  obtain ⟨out, o, h1, h2, h3, h4⟩ := rows_spec ha n s r d
  refine ⟨out.length + 1, fun fuel hf => ⟨⟨(edgeIndex n s r d).idx, filtered fuel p ⟨hn, false, k⟩ o⟩, out, ?_, h3, h4, ?_⟩⟩
  · rw [edg, getEdgeItr, h1]
    simp only [hs]
  · exact returns_edges (o := filtered fuel p ⟨hn, false, k⟩ o) (filtered_yields (Nat.le_refl _) h2 (by omega))

/-- `edg_srd` with one variable for subject and predicate. -/
theorem subject_spec {get : Nat → Int → Int → Int → QRes} {G : Triple → Prop} (ha : Answers get G) (hn : Bool) (k : Int) {x y : Int} (hx : x < 0) (hy : y < 0) :
    ∃ m, ∀ fuel ≥ m, ∃ (e : EdgeItr) (ts : List Triple), edg get fuel ⟨hn, false, k⟩ .spo x x y = some e ∧ e.Returns (ts.map fun t => ⟨k, t.p, t.o⟩) ∧ ts.Nodup ∧ ∀ t, t ∈ ts ↔ G t ∧ t.s = t.p := by
  have hs : sameVar x x y = some (0, 1) := by simp [sameVar, hx]
  have hi : edgeIndex .spo x x y = .spo := by simp only [edgeIndex]; rw [if_neg (by omega), if_neg (by omega)]
  obtain ⟨m, h⟩ := same_spec ha .spo hs hn k
  refine ⟨m, fun fuel hf => ?_⟩
  obtain ⟨e, out, h1, h2, h3, h4⟩ := h fuel hf
  rw [hi] at h3 h4
  refine ⟨e, (out.filter (same (0, 1))).map (tripleAt 0), h1, ?_, ?_, fun t => ?_⟩
  · rw [List.map_map] at h4 ⊢
    exact h4
  · rw [List.Nodup, List.pairwise_map]
    refine (h2.filter _).imp fun {a b} hab e => ?_
    have : a = b := by rw [← row_tripleAt .spo a, ← row_tripleAt .spo b]; exact congrArg (Order.row .spo) e
    subst this
    simp only [Row3.lt, Pair.lt] at hab
    omega
  · rw [List.mem_map]
    constructor
    · rintro ⟨w, hw, rfl⟩
      obtain ⟨hw1, hw2⟩ := List.mem_filter.1 hw
      obtain ⟨u, g1, g2, rfl⟩ := (h3 w).1 hw1
      have hw3 : (Order.spo.row u).1 = (Order.spo.row u).2.1 := by simpa [same] using hw2
      exact ⟨g1, hw3⟩
    · rintro ⟨g1, g2⟩
      refine ⟨Order.spo.row t, List.mem_filter.2 ⟨(h3 _).2 ⟨t, g1, ⟨fun h => absurd h (by omega), fun h => absurd h (by omega), fun h => absurd h (by omega)⟩, rfl⟩, ?_⟩, rfl⟩
      have g3 : (Order.spo.row t).1 = (Order.spo.row t).2.1 := g2
      simpa [same] using g3

/-- **C114 (subjects, violated).** `edg_srd` with one variable for subject and predicate finds the right triples, but returns each with a subject that is left in the memory of the iterator. -/
theorem C114_subject_violated {get : Nat → Int → Int → Int → QRes} {G : Triple → Prop} (ha : Answers get G) (hn : Bool) (k : Int) {x y : Int} (hx : x < 0) (hy : y < 0) (_hxy : y ≠ x) :
    ∃ m, ∀ fuel ≥ m, ∃ (e : EdgeItr) (ts : List Triple), edg get fuel ⟨hn, false, k⟩ .spo x x y = some e ∧ e.Returns (ts.map fun t => ⟨k, t.p, t.o⟩) ∧ ts.Nodup ∧ ∀ t, t ∈ ts ↔ G t ∧ t.s = t.p :=
  subject_spec ha hn k hx hy

/-- **C114 (positions, violated).** `edg_srd` with a predicate `r` and one variable for subject and object looks for triples whose object is `r`. -/
theorem C114_position_violated {get : Nat → Int → Int → Int → QRes} {G : Triple → Prop} (ha : Answers get G) (hn : Bool) (k : Int) {x r : Int} (hx : x < 0) (hr : 0 ≤ r) :
    ∃ m, ∀ fuel ≥ m, ∃ (e : EdgeItr) (ts : List Triple), edg get fuel ⟨hn, false, k⟩ .spo x r x = some e ∧ e.Returns (ts.map fun t => ⟨t.s, k, t.o⟩) ∧ ∀ t, t ∈ ts ↔ G t ∧ t.p = r ∧ t.o = r := by
  have hs : sameVar x r x = some (0, 2) := by
    unfold sameVar
    rw [if_neg (by omega), if_pos ⟨hx, rfl⟩]
  have hi : edgeIndex .spo x r x = .pso := by simp only [edgeIndex]; rw [if_neg (by omega), if_pos (by omega)]
  obtain ⟨m, h⟩ := same_spec ha .spo hs hn k
  refine ⟨m, fun fuel hf => ?_⟩
  obtain ⟨e, out, h1, h2, h3, h4⟩ := h fuel hf
  rw [hi] at h3 h4
  refine ⟨e, (out.filter (same (0, 2))).map (tripleAt 5), h1, ?_, fun t => ?_⟩
  · rw [List.map_map] at h4 ⊢
    exact h4
  · rw [List.mem_map]
    constructor
    · rintro ⟨w, hw, rfl⟩
      obtain ⟨hw1, hw2⟩ := List.mem_filter.1 hw
      obtain ⟨u, g1, g2, rfl⟩ := (h3 w).1 hw1
      have hp := g2.2.1 hr
      have hw3 : (Order.pso.row u).1 = (Order.pso.row u).2.2 := by simpa [same] using hw2
      have : u.p = u.o := hw3
      exact ⟨g1, hp, by show u.o = r; omega⟩
    · rintro ⟨g1, g2, g3⟩
      refine ⟨Order.pso.row t, List.mem_filter.2 ⟨(h3 _).2 ⟨t, g1, ⟨fun h => absurd h (by omega), fun _ => g2, fun h => absurd h (by omega)⟩, rfl⟩, ?_⟩, rfl⟩
      have : t.p = t.o := by omega
      have g4 : (Order.pso.row t).1 = (Order.pso.row t).2.2 := this
      simpa [same] using g4

/-- **C114 (predicates and objects, violated).** `edg_srd` with one variable for predicate and object finds the right triples, but returns each with a subject that is left in the memory of the iterator,
even if the subject is a term of the query. -/
theorem C114_object_violated {get : Nat → Int → Int → Int → QRes} {G : Triple → Prop} (ha : Answers get G) (hn : Bool) (k : Int) {s x : Int} (hx : x < 0) (hsx : s ≠ x) :
    ∃ m, ∀ fuel ≥ m, ∃ (e : EdgeItr) (ts : List Triple), edg get fuel ⟨hn, false, k⟩ .spo s x x = some e ∧ e.Returns (ts.map fun t => ⟨k, t.p, t.o⟩) ∧ ∀ t, t ∈ ts ↔ G t ∧ (0 ≤ s → t.s = s) ∧ t.p = t.o := by
  have hs : sameVar s x x = some (1, 2) := by
    unfold sameVar
    rw [if_neg (by omega), if_neg (by omega), if_pos ⟨hx, rfl⟩]
  have hi : edgeIndex .spo s x x = .spo := by simp only [edgeIndex]; rw [if_neg (by omega), if_neg (by omega)]
  obtain ⟨m, h⟩ := same_spec ha .spo hs hn k
  refine ⟨m, fun fuel hf => ?_⟩
  obtain ⟨e, out, h1, h2, h3, h4⟩ := h fuel hf
  rw [hi] at h3 h4
  refine ⟨e, (out.filter (same (1, 2))).map (tripleAt 0), h1, ?_, fun t => ?_⟩
  · rw [List.map_map] at h4 ⊢
    exact h4
  · rw [List.mem_map]
    constructor
    · rintro ⟨w, hw, rfl⟩
      obtain ⟨hw1, hw2⟩ := List.mem_filter.1 hw
      obtain ⟨u, g1, g2, rfl⟩ := (h3 w).1 hw1
      have hw3 : (Order.spo.row u).2.1 = (Order.spo.row u).2.2 := by simpa [same] using hw2
      exact ⟨g1, g2.1, hw3⟩
    · rintro ⟨g1, g2, g3⟩
      refine ⟨Order.spo.row t, List.mem_filter.2 ⟨(h3 _).2 ⟨t, g1, ⟨g2, fun h => absurd h (by omega), fun h => absurd h (by omega)⟩, rfl⟩, ?_⟩, rfl⟩
      have g4 : (Order.spo.row t).2.1 = (Order.spo.row t).2.2 := g3
      simpa [same] using g4

/-- **C114 (used iterators, violated).** If the memory is that of an iterator that was read to its end, then nothing is returned if a variable occurs twice. -/
theorem C114_used_violated {get : Nat → Int → Int → Int → QRes} {G : Triple → Prop} (ha : Answers get G) (fuel : Nat) (k : Int) (n : Order) {s r d : Int} {p : Nat × Nat} (hs : sameVar s r d = some p) :
    ∃ e, edg get fuel ⟨false, true, k⟩ n s r d = some e ∧ e.Returns [] := by
  obtain ⟨out, o, h1, h2, h3, h4⟩ := rows_spec ha n s r d
  refine ⟨⟨(edgeIndex n s r d).idx, filtered fuel p ⟨false, true, k⟩ o⟩, ?_, ?_⟩
  · rw [edg, getEdgeItr, h1]
    simp only [hs]
  · exact .done rfl

/-- **C114 (three times, violated).** With one variable at all three positions, `edg_srd` returns a triple for each triple whose subject is its predicate, whatever its object is. -/
theorem C114_three_violated {get : Nat → Int → Int → Int → QRes} {G : Triple → Prop} (ha : Answers get G) (hn : Bool) (k : Int) {x : Int} (hx : x < 0) :
    ∃ m, ∀ fuel ≥ m, ∃ (e : EdgeItr) (ts : List Triple), edg get fuel ⟨hn, false, k⟩ .spo x x x = some e ∧ e.Returns (ts.map fun t => ⟨k, t.p, t.o⟩) ∧ ts.Nodup ∧ ∀ t, t ∈ ts ↔ G t ∧ t.s = t.p :=
  subject_spec ha hn k hx hx

/-! ## C115 -/

/-- `hasNext` twice is as `hasNext` once. -/
def Steady (get : Nat → Int → Int → Int → QRes) : Prop := ∀ idx s p o ob, get idx s p o = .itr ob → ob.I.Idem

theorem withKey_idem {o : Obj} (h : o.I.Idem) (k : Int) : (o.withKey k).I.Idem := fun s => h s

/-- The iterators of a store are steady. -/
theorem steady_stored (kb : KB) (E : Env) : Steady (kb.getIterator E) := by
  intro idx s p o ob h
  unfold KB.getIterator at h
  split at h
  · simp only at h
    split at h
    · split at h
      · injection h with h
        subst h
        exact withKey_idem (get_idem kb E _ _ _ _) _
      · injection h with h
        subst h
        exact withKey_idem empty_idem _
    · split at h
      · injection h with h
        subst h
        exact scan_idem kb E
      · cases h
  · cases h

/-- `c` triples of the store have the terms of the query and are in the group. -/
def GroupOf (G : Triple → Prop) (P : Triple → Prop) (c : Nat) : Prop := ∃ ts : List Triple, ts.Nodup ∧ (∀ t, t ∈ ts ↔ G t ∧ P t) ∧ c = ts.length

theorem triples_nodup {d : Order} {out : List Row3} (h : out.Pairwise Row3.lt) : (out.map (tripleAt d.idx)).Nodup := by
  rw [List.Nodup, List.pairwise_map]
  refine h.imp fun {a b} hab e => ?_
  have : a = b := by rw [← row_tripleAt d a, ← row_tripleAt d b]; exact congrArg d.row e
  subst this
  simp only [Row3.lt, Pair.lt] at hab
  omega

theorem nodup_length {α : Type} [DecidableEq α] {l m : List α} (hl : l.Nodup) (hm : m.Nodup) (h : ∀ x, x ∈ l ↔ x ∈ m) : l.length = m.length :=
  ((List.perm_ext_iff_of_nodup hl hm).2 h).length_eq

/-- The groups of the rows of an index. -/
theorem groups_spec {G : Triple → Prop} {D : Order} {s r d : Int} {κ : Type} [DecidableEq κ] {key : Row3 → κ} {le : κ → κ → Prop} (hanti : ∀ a b, le a b → le b a → a = b)
    (hle : ∀ a b, Row3.lt a b → le (key a) (key b)) {out : List Row3} (h3 : out.Pairwise Row3.lt) (h4 : ∀ x, x ∈ out ↔ ∃ t, G t ∧ Fits s r d t ∧ D.row t = x) :
    ((runs key out).map (·.1)).Nodup ∧ ∀ k c, (k, c) ∈ runs key out ↔ 0 < c ∧ GroupOf G (fun t => Fits s r d t ∧ key (D.row t) = k) c := by
  obtain ⟨r1, r2⟩ := runs_spec hanti (key := key) (Nat.le_refl out.length) (h3.imp fun {a b} h => hle a b h)
  refine ⟨r1, fun k c => ?_⟩
  have hts : ∀ t, t ∈ (out.filter fun y => decide (key y = k)).map (tripleAt D.idx) ↔ G t ∧ Fits s r d t ∧ key (D.row t) = k := by
    intro t
    rw [List.mem_map]
    constructor
    · rintro ⟨x, hx, rfl⟩
      obtain ⟨hx1, hx2⟩ := List.mem_filter.1 hx
      obtain ⟨u, g1, g2, rfl⟩ := (h4 x).1 hx1
      rw [tripleAt_row]
      exact ⟨g1, g2, by simpa using hx2⟩
    · rintro ⟨g1, g2, g3⟩
      exact ⟨D.row t, List.mem_filter.2 ⟨(h4 _).2 ⟨t, g1, g2, rfl⟩, by simpa using g3⟩, tripleAt_row D t⟩
  have hnd := triples_nodup (d := D) (h3.filter fun y => decide (key y = k))
  rw [r2 k c]
  constructor
  · rintro ⟨g1, g2⟩
    exact ⟨g2, _, hnd, hts, by rw [List.length_map]; exact g1⟩
  · rintro ⟨g2, ts, t1, t2, t3⟩
    refine ⟨?_, g2⟩
    rw [t3, ← List.length_map (f := tripleAt D.idx)]
    classical
    exact nodup_length t1 hnd fun t => (t2 t).trans (hts t).symm

theorem grp1_spec {get : Nat → Int → Int → Int → QRes} {G : Triple → Prop} (ha : Answers get G) (hst : Steady get) (old : Old) (g : Bool × (Int × Nat)) (x : Pos) {s r d : Int} (hd : Distinct s r d) :
    ∃ m, ∀ fuel ≥ m, ∃ k out, grp1 get fuel old g x s r d = some k ∧ k.Returns out ∧ (out.map (·.1)).Nodup ∧
      ∀ key c, (key, c) ∈ out ↔ 0 < c ∧ GroupOf G (fun t => Fits s r d t ∧ t.at (edgeIndex (groupEdges x s r d) s r d).positions.1 = key) c := by
  obtain ⟨out, o, h1, h2, h3, h4⟩ := rows_spec ha (groupEdges x s r d) s r d
  refine ⟨out.length + 1, fun fuel hf => ?_⟩
  refine ⟨⟨KSt o.σ Int, grouped o.I key1 fuel, groupedInit o.s g.1 g.2⟩, runs key1 out, ?_, ?_, ?_⟩
  · rw [grp1, edg, getEdgeItr, h1]
    simp only [sameVar_none hd]
    rfl
  · exact (grouped_yields (hst _ _ _ _ _ h1) (Nat.le_refl out.length) (by omega)).1 _ _ _ _ h2
  · exact groups_spec (D := edgeIndex (groupEdges x s r d) s r d) (key := key1) (le := (· ≤ ·)) (fun a b h1 h2 => by omega)
      (fun a b h => by simp only [Row3.lt, key1] at h ⊢; omega) h3 h4

/-- The lexicographic order of pairs. -/
def leP (a b : Int × Int) : Prop := a.1 < b.1 ∨ (a.1 = b.1 ∧ a.2 ≤ b.2)

theorem runs_length {κ : Type} [DecidableEq κ] (key : Row3 → κ) : ∀ (n : Nat) (l : List Row3), l.length ≤ n → (runs key l).length ≤ l.length
  | _, [], _ => by simp [runs]
  | 0, _ :: _, h => by simp at h
  | n + 1, x :: l, h => by
    have h1 := (List.dropWhile_sublist (l := l) fun y => decide (key y = key x)).length_le
    have h2 := runs_length key n (l.dropWhile fun y => decide (key y = key x)) (by simp at h; omega)
    rw [runs]
    simp only [List.length_cons]
    omega

theorem grp2_spec {get : Nat → Int → Int → Int → QRes} {G : Triple → Prop} (ha : Answers get G) (hst : Steady get) (old : Old) (g : Bool × ((Int × Int) × Nat)) (n : Order) {s r d : Int} (hd : Distinct s r d) :
    ∃ m, ∀ fuel ≥ m, ∃ k out, grp2 get fuel old g n s r d = some k ∧ k.Returns out ∧ out.length < fuel ∧ (out.map (·.1)).Nodup ∧
      ∀ key c, (key, c) ∈ out ↔ 0 < c ∧ GroupOf G (fun t => Fits s r d t ∧ (t.at (edgeIndex n s r d).positions.1, t.at (edgeIndex n s r d).positions.2.1) = key) c := by
  obtain ⟨out, o, h1, h2, h3, h4⟩ := rows_spec ha n s r d
  refine ⟨out.length + 1, fun fuel hf => ?_⟩
  refine ⟨⟨KSt o.σ (Int × Int), grouped o.I key2 fuel, groupedInit o.s g.1 g.2⟩, runs key2 out, ?_, ?_, ?_, ?_⟩
  · rw [grp2, edg, getEdgeItr, h1]
    simp only [sameVar_none hd]
    rfl
  · exact (grouped_yields (hst _ _ _ _ _ h1) (Nat.le_refl out.length) (by omega)).1 _ _ _ _ h2
  · exact Nat.lt_of_le_of_lt (runs_length key2 _ out (Nat.le_refl _)) (by omega)
  · exact groups_spec (D := edgeIndex n s r d) (key := key2) (le := leP) (fun a b h1 h2 => by
        obtain ⟨a1, a2⟩ := a
        obtain ⟨b1, b2⟩ := b
        simp only [leP] at h1 h2
        rw [Prod.mk.injEq]
        omega)
      (fun a b h => by simp only [Row3.lt, Pair.lt, key2, leP] at h ⊢; omega) h3 h4

/-- **C115 (one position, part).** If all positions of the query are variables, `grp_s`, `grp_r` and `grp_d` return each term at their position once, with the number of triples that have it there.
Missing: queries with terms (`C115_bound_violated`). -/
theorem C115_one_partial {get : Nat → Int → Int → Int → QRes} {G : Triple → Prop} (ha : Answers get G) (hst : Steady get) (old : Old) (g : Bool × (Int × Nat)) (x : Pos) {s r d : Int}
    (hd : Distinct s r d) (hs : s < 0) (hr : r < 0) (ho : d < 0) :
    ∃ m, ∀ fuel ≥ m, ∃ k out, grp1 get fuel old g x s r d = some k ∧ k.Returns out ∧ (out.map (·.1)).Nodup ∧ ∀ key c, (key, c) ∈ out ↔ 0 < c ∧ GroupOf G (fun t => t.at x = key) c := by
  obtain ⟨m, h⟩ := grp1_spec ha hst old g x hd
  refine ⟨m, fun fuel hf => ?_⟩
  obtain ⟨k, out, h1, h2, h3, h4⟩ := h fuel hf
  refine ⟨k, out, h1, h2, h3, fun key c => ?_⟩
  rw [h4 key c]
  have hfit : ∀ t, Fits s r d t := fun t => ⟨fun h => absurd h (by omega), fun h => absurd h (by omega), fun h => absurd h (by omega)⟩
  have hx : (edgeIndex (groupEdges x s r d) s r d).positions.1 = x := by
    have e1 : ¬ s ≥ 0 := by omega
    have e2 : ¬ r ≥ 0 := by omega
    have e3 : ¬ d ≥ 0 := by omega
    cases x <;> simp [groupEdges, edgeIndex, e1, e2, e3, Order.positions]
  simp only [hx, hfit, true_and]

/-- **C115 (two positions, part).** If the second and the third position of its name are variables, then each of `grp_sr`, `grp_sd`, `grp_rs`, `grp_rd`, `grp_ds` and `grp_dr` returns each pair of terms at the
positions of its name once, with the number of triples that have it there.  Missing: other queries (`C115_swapped_violated`, `C115_const_violated`). -/
theorem C115_two_partial {get : Nat → Int → Int → Int → QRes} {G : Triple → Prop} (ha : Answers get G) (hst : Steady get) (old : Old) (g : Bool × ((Int × Int) × Nat)) (n : Order) {s r d : Int}
    (hd : Distinct s r d) (h2 : (Triple.mk s r d).at n.positions.2.1 < 0) (h3 : (Triple.mk s r d).at n.positions.2.2 < 0) :
    ∃ m, ∀ fuel ≥ m, ∃ k out, grp2 get fuel old g n s r d = some k ∧ k.Returns out ∧ (out.map (·.1)).Nodup ∧
      ∀ key c, (key, c) ∈ out ↔ 0 < c ∧ GroupOf G (fun t => Fits s r d t ∧ (t.at n.positions.1, t.at n.positions.2.1) = key) c := by
  have hn : edgeIndex n s r d = n := by
    cases n <;> simp only [Order.positions, Triple.at] at h2 h3 <;> simp only [edgeIndex] <;> rw [if_neg (by omega), if_neg (by omega)]
  obtain ⟨m, h⟩ := grp2_spec ha hst old g n hd
  rw [hn] at h
  refine ⟨m, fun fuel hf => ?_⟩
  obtain ⟨k, out, g1, g2, -, g3⟩ := h fuel hf
  exact ⟨k, out, g1, g2, g3⟩

/-- **C115 (asking again).** Asking a group iterator again whether it has another group gives the same answer and changes nothing. -/
theorem C115_again {σ κ : Type} [DecidableEq κ] (I : Itr σ Row3) (key : Row3 → κ) (fuel : Nat) (st : KSt σ κ) : (grouped I key fuel).hasNext ((grouped I key fuel).hasNext st).2 = (grouped I key fuel).hasNext st := by
  have hc : ∀ st' : KSt σ κ, st'.hnDone = true → (grouped I key fuel).hasNext st' = (st'.hn, st') := fun st' h => if_pos h
  by_cases h : st.hnDone = true
  · rw [hc st h, hc st h]
  · have : ((grouped I key fuel).hasNext st).2.hnDone = true ∧ ((grouped I key fuel).hasNext st).2.hn = ((grouped I key fuel).hasNext st).1 := by
      simp only [grouped]
      rw [if_neg h]
      generalize (if st.nextDone = true then (true, st.s) else _ : Bool × σ) = x
      by_cases hx : x.1 = true
      · rw [if_pos hx]
        exact ⟨rfl, rfl⟩
      · rw [if_neg hx]
        exact ⟨rfl, rfl⟩
    rw [hc _ this.1, this.2]

/-- **C114 (count, violated).** With one variable for subject and object, `countEdges` does not look at the predicate: it counts all triples of the store whose subject is their object. -/
theorem C114_count_violated {kb : KB} {E : Env} {G : Triple → Prop} (ha : Answers (kb.getIterator E) G) (card : Int → Int → Int → Nat) (hn : Bool) (k : Int) {x : Int} (hx : x < 0) (r : Int) (hr : 0 ≤ r) :
    ∃ m, ∀ fuel ≥ m, ∃ c, countEdges (kb.getIterator E) card fuel ⟨hn, false, k⟩ x r x = some c ∧ GroupOf G (fun t => t.s = t.o) c := by
  have hs : sameVar x r x = some (0, 2) := by
    unfold sameVar
    rw [if_neg (by omega), if_pos ⟨hx, rfl⟩]
  obtain ⟨out, o, h1, h2, h3, h4⟩ := rows_spec ha .spo (-1) (-2) (-3)
  have hi : edgeIndex .spo (-1) (-2) (-3) = .spo := rfl
  rw [hi] at h1 h4
  have hg : kb.getIterator E 0 x r x = .itr o := by
    rw [← h1]
    have e1 : ¬ (permute 0 x r x).1 ≥ 0 := by show ¬ x ≥ 0; omega
    have e2 : ¬ (permute 0 (-1) (-1) (-1)).1 ≥ 0 := by decide
    show KB.getIterator kb E 0 x r x = KB.getIterator kb E 0 (-1) (-1) (-1)
    unfold KB.getIterator
    simp only [if_neg e1, if_neg e2]
  refine ⟨out.length + 1, fun fuel hf => ⟨(drain (filtered fuel (0, 2) ⟨hn, false, k⟩ o).I fuel (filtered fuel (0, 2) ⟨hn, false, k⟩ o).s).length, by rw [countEdges]; simp only [hs, hg], ?_⟩⟩
  have hy : Yields (filtered fuel (0, 2) ⟨hn, false, k⟩ o).I (filtered fuel (0, 2) ⟨hn, false, k⟩ o).s ((out.filter (same (0, 2))).map fun x => (k, x.2)) :=
    filtered_yields (Nat.le_refl _) h2 (by omega)
  rw [drain_eq hy (by rw [List.length_map]; exact Nat.lt_of_le_of_lt (List.length_filter_le _ _) (by omega)), List.length_map, ← List.length_map (f := tripleAt Order.spo.idx)]
  refine ⟨_, triples_nodup (h3.filter _), fun t => ?_, rfl⟩
  rw [List.mem_map]
  constructor
  · rintro ⟨w, hw, rfl⟩
    obtain ⟨hw1, hw2⟩ := List.mem_filter.1 hw
    obtain ⟨u, g1, g2, rfl⟩ := (h4 w).1 hw1
    have hw3 : (Order.spo.row u).1 = (Order.spo.row u).2.2 := by simpa [same] using hw2
    exact ⟨g1, hw3⟩
  · rintro ⟨g1, g2⟩
    refine ⟨Order.spo.row t, List.mem_filter.2 ⟨(h4 _).2 ⟨t, g1, ⟨fun h => absurd h (by omega), fun h => absurd h (by omega), fun h => absurd h (by omega)⟩, rfl⟩, ?_⟩, rfl⟩
    have g3 : (Order.spo.row t).1 = (Order.spo.row t).2.2 := g2
    simpa [same] using g3

/-- **C115 (terms, violated).** If the predicate is a term `r`, then `grp_s` returns one group, with `r` as its key and all triples. -/
theorem C115_bound_violated {get : Nat → Int → Int → Int → QRes} {G : Triple → Prop} (ha : Answers get G) (hst : Steady get) (old : Old) (g : Bool × (Int × Nat)) {s r d : Int}
    (hd : Distinct s r d) (hs : s < 0) (hr : 0 ≤ r) (ho : d < 0) :
    ∃ m, ∀ fuel ≥ m, ∃ k out, grp1 get fuel old g .s s r d = some k ∧ k.Returns out ∧ (out.map (·.1)).Nodup ∧ ∀ key c, (key, c) ∈ out ↔ key = r ∧ 0 < c ∧ GroupOf G (fun t => t.p = r) c := by
  obtain ⟨m, h⟩ := grp1_spec ha hst old g .s hd
  refine ⟨m, fun fuel hf => ?_⟩
  obtain ⟨k, out, h1, h2, h3, h4⟩ := h fuel hf
  refine ⟨k, out, h1, h2, h3, fun key c => ?_⟩
  rw [h4 key c]
  have hx : (edgeIndex (groupEdges .s s r d) s r d).positions.1 = .p := by
    have e2 : r ≥ 0 := hr
    have e3 : ¬ d ≥ 0 := by omega
    simp [groupEdges, edgeIndex, e2, e3, Order.positions]
  have hfit : ∀ t, Fits s r d t ↔ t.p = r := fun t => ⟨fun h => h.2.1 hr, fun h => ⟨fun h => absurd h (by omega), fun _ => h, fun h => absurd h (by omega)⟩⟩
  simp only [hx, hfit, Triple.at]
  constructor
  · rintro ⟨hc, ts, t1, t2, t3⟩
    have hne : ts ≠ [] := fun h => by rw [h] at t3; simp at t3; omega
    obtain ⟨u, hu⟩ := List.exists_mem_of_ne_nil _ hne
    have hk : r = key := ((t2 u).1 hu).2.1 ▸ ((t2 u).1 hu).2.2
    exact ⟨hk.symm, hc, ts, t1, fun t => (t2 t).trans ⟨fun h => ⟨h.1, h.2.1⟩, fun h => ⟨h.1, h.2, h.2.trans hk⟩⟩, t3⟩
  · rintro ⟨rfl, hc, ts, t1, t2, t3⟩
    exact ⟨hc, ts, t1, fun t => (t2 t).trans ⟨fun h => ⟨h.1, h.2, h.2⟩, fun h => ⟨h.1, h.2.1⟩⟩, t3⟩

/-- **C115 (order of the keys, violated).** If the predicate is a term `r`, then the keys of `grp_sr` are predicate and subject, not subject and predicate. -/
theorem C115_swapped_violated {get : Nat → Int → Int → Int → QRes} {G : Triple → Prop} (ha : Answers get G) (hst : Steady get) (old : Old) (g : Bool × ((Int × Int) × Nat)) {s r d : Int}
    (hd : Distinct s r d) (_hs : s < 0) (hr : 0 ≤ r) (ho : d < 0) :
    ∃ m, ∀ fuel ≥ m, ∃ k out, grp2 get fuel old g .spo s r d = some k ∧ k.Returns out ∧ ∀ key c, (key, c) ∈ out ↔ 0 < c ∧ GroupOf G (fun t => Fits s r d t ∧ (t.p, t.s) = key) c := by
  have hn : edgeIndex .spo s r d = .pso := by simp only [edgeIndex]; rw [if_neg (by omega), if_pos (by omega)]
  obtain ⟨m, h⟩ := grp2_spec ha hst old g .spo hd
  rw [hn] at h
  refine ⟨m, fun fuel hf => ?_⟩
  obtain ⟨k, out, h1, h2, -, -, h4⟩ := h fuel hf
  exact ⟨k, out, h1, h2, h4⟩

/-- **C115 (two terms, violated).** If both keys are terms, then the first key is the second one, and the second one was never set. -/
theorem C115_const_violated (card : Nat) (hc : 0 < card) (k1 k2 old : Int) : constGroup2 card k1 k2 old = [((k2, old), card)] := if_pos hc

/-! ## C116 -/

theorem advance_length {σ α : Type} {I : Itr σ α} : ∀ {n : Nat} {s : σ} {l : List α}, Yields I s l → l.length ≤ n → advance I n s = none
  | 0, s, _, .done h, _ => by simp [advance, h]
  | n + 1, s, _, .done h, _ => by simp [advance, h]
  | 0, s, _, .step _ _, hl => by simp at hl
  | n + 1, s, _, .step h hy, hl => by
    rw [advance, if_pos h]
    exact advance_length hy (by simpa using hl)

theorem advance_value {σ α : Type} {I : Itr σ α} (hst : ∀ s, I.val (I.hasNext s).2 = I.val s) : ∀ {n : Nat} {s : σ} {l : List α}, Yields I s l → (h : n < l.length) →
    ∃ s', advance I n s = some s' ∧ I.val s' = (I.val s :: l)[n]'(by simp; omega)
  | _, _, _, .done _, hl => by simp at hl
  | 0, s, _, .step h _, _ => ⟨(I.hasNext s).2, by simp [advance, h], hst s⟩
  | n + 1, s, _, .step (l := l) h hy, hl => by
    obtain ⟨s', h1, h2⟩ := advance_value hst (n := n) hy (by simpa using hl)
    exact ⟨s', by rw [advance, if_pos h]; exact h1, h2⟩

/-- `hasNext` keeps the values. -/
def Keeps (get : Nat → Int → Int → Int → QRes) (idx : Nat) (s r d : Int) : Prop := ∀ o, get idx s r d = .itr o → ∀ st, o.I.val (o.I.hasNext st).2 = o.I.val st

/-- **C116 (positions, part).** If `ts` is what `edg_*` returns, then `pos_*` with a position from 1 to `ts.length - 1` returns the triple at that position, the first one being 1.
It is for iterators whose `hasNext` keeps the values.  Missing: the last position (`C116_last_violated`), 0, and scans (`C116_scan_violated`). -/
theorem C116_position_partial {get : Nat → Int → Int → Int → QRes} {G : Triple → Prop} (ha : Answers get G) (fuel : Nat) (old : Old) (n : Order) {s r d : Int} (hd : Distinct s r d)
    (hk : Keeps get (edgeIndex n s r d).idx (clamp s) (clamp r) (clamp d)) :
    ∃ ts : List Triple, ts.Pairwise (fun a b => Row3.lt (n.row a) (n.row b)) ∧ (∀ t, t ∈ ts ↔ G t ∧ Fits s r d t) ∧
      ∀ i, (h : i + 1 < ts.length) → posEdge get fuel old n s r d (i + 1) = some ts[i] := by
  obtain ⟨out, o, h1, h2, h3, h4⟩ := rows_spec ha n s r d
  refine ⟨_, sorted_triples h3 h4, mem_triples h4, fun i hi => ?_⟩
  have hy : Yields (EdgeItr.mk (edgeIndex n s r d).idx o).itr o.s (out.map (tripleAt (edgeIndex n s r d).idx)) := returns_edges h2
  have hst : ∀ st, (EdgeItr.mk (edgeIndex n s r d).idx o).itr.val ((EdgeItr.mk (edgeIndex n s r d).idx o).itr.hasNext st).2 = (EdgeItr.mk (edgeIndex n s r d).idx o).itr.val st := by
    intro st
    exact congrArg (tripleAt (edgeIndex n s r d).idx) (hk o h1 st)
  obtain ⟨s', g1, g2⟩ := advance_value hst hy hi
  have he : edg get fuel old n s r d = some ⟨(edgeIndex n s r d).idx, o⟩ := by
    rw [edg, getEdgeItr, h1]
    simp only [sameVar_none hd]
  rw [posEdge, he]
  simp only [Option.bind_some, g1, Option.map_some, g2]
  rfl

theorem get_keeps (kb : KB) (E : Env) (idx : Nat) (cs) (v1 v2 : Int) (st) : (kb.get E idx cs v1 v2).I.val ((kb.get E idx cs v1 v2).I.hasNext st).2 = (kb.get E idx cs v1 v2).I.val st := by
  have hemp : ∀ o : Obj, o = Obj.empty → ∀ st, o.I.val (o.I.hasNext st).2 = o.I.val st := by rintro _ rfl _; rfl
  have htab : ∀ e o, o = kb.openTab e v1 v2 → ∀ st, o.I.val (o.I.hasNext st).2 = o.I.val st := by
    intro e o ho
    unfold KB.openTab at ho
    split at ho
    · subst ho
      intro st
      exact congrArg (Strat.Tab.itr _).val (Tab.hasNext_snd _ st)
    · exact hemp o ho
  have hrev : ∀ old o, o = Obj.onReverse E.sortP E.fuel old v1 v2 → ∀ st, o.I.val (o.I.hasNext st).2 = o.I.val st := by
    intro old o ho
    unfold Obj.onReverse at ho
    simp only at ho
    split at ho
    · subst ho
      intro st
      show (Arr.itr _).val (Arr.hasNext _ st).2 = (Arr.itr _).val st
      unfold Arr.hasNext
      split <;> rfl
    · exact hemp o ho
  have key : ∀ o, o = kb.get E idx cs v1 v2 → ∀ st, o.I.val (o.I.hasNext st).2 = o.I.val st := by
    intro o ho
    unfold KB.get at ho
    split at ho
    · exact htab _ o ho
    · split at ho
      · split at ho
        · exact hrev _ o ho
        · exact hemp o ho
      · exact hemp o ho
  exact key _ rfl st

/-- The iterators of a store for queries with a term keep the values. -/
theorem keeps_stored (kb : KB) (E : Env) (n : Order) {s r d : Int} (h : 0 ≤ s ∨ 0 ≤ r ∨ 0 ≤ d) : Keeps (kb.getIterator E) (edgeIndex n s r d).idx (clamp s) (clamp r) (clamp d) := by
  have h1 : (permute (edgeIndex n s r d).idx (clamp s) (clamp r) (clamp d)).1 ≥ 0 := by
    cases n <;> unfold edgeIndex <;> simp only [] <;> repeat' split
    all_goals simp only [Order.idx, permute, clamp]
    all_goals split <;> omega
  intro o ho st
  unfold KB.getIterator at ho
  split at ho
  · simp only [if_pos h1] at ho
    split at ho
    · injection ho with ho
      subst ho
      exact congrArg (Prod.mk _) (get_keeps kb E _ _ _ _ st)
    · injection ho with ho
      subst ho
      rfl
  · cases ho

/-- **C116 (positions in a store, part).** `C116_position_partial` for a store that was loaded and queries with at least one term. -/
theorem C116_stored_partial {kb : KB} {E : Env} {G : Triple → Prop} (ha : Answers (kb.getIterator E) G) (fuel : Nat) (old : Old) (n : Order) {s r d : Int} (hd : Distinct s r d) (ht : 0 ≤ s ∨ 0 ≤ r ∨ 0 ≤ d) :
    ∃ ts : List Triple, ts.Pairwise (fun a b => Row3.lt (n.row a) (n.row b)) ∧ (∀ t, t ∈ ts ↔ G t ∧ Fits s r d t) ∧
      ∀ i, (h : i + 1 < ts.length) → posEdge (kb.getIterator E) fuel old n s r d (i + 1) = some ts[i] :=
  C116_position_partial ha fuel old n hd (keeps_stored kb E n ht)

/-- **C116 (last position, violated).** With `n` triples, the positions from `n` on are refused: the last triple is never returned. -/
theorem C116_last_violated {get : Nat → Int → Int → Int → QRes} {G : Triple → Prop} (ha : Answers get G) (fuel : Nat) (old : Old) (n : Order) {s r d : Int} (hd : Distinct s r d) :
    ∃ ts : List Triple, ts.Pairwise (fun a b => Row3.lt (n.row a) (n.row b)) ∧ (∀ t, t ∈ ts ↔ G t ∧ Fits s r d t) ∧ ∀ i, ts.length ≤ i → posEdge get fuel old n s r d i = none := by
  obtain ⟨out, o, h1, h2, h3, h4⟩ := rows_spec ha n s r d
  refine ⟨_, sorted_triples h3 h4, mem_triples h4, fun i hi => ?_⟩
  have he : edg get fuel old n s r d = some ⟨(edgeIndex n s r d).idx, o⟩ := by
    rw [edg, getEdgeItr, h1]
    simp only [sameVar_none hd]
  rw [posEdge, he]
  simp only [Option.bind_some, advance_length (returns_edges h2) hi, Option.map_none]

/-- **C116 (scans, violated).** If all positions are variables, the iterator is a scan.  When a table ends and another follows, `hasNext` closes the table, and the values that are read after it come from no table. -/
theorem C116_scan_violated (kb : KB) (st : Scan.St) (c : Src) (hc : st.cur = some c) (hh : st.hnc = false) (h : ((Src.itr kb.mem).hasNext c).1 = false) : (Scan.hasNext kb st).2.cur = none := by
  simp only [Scan.hasNext, hh, hc, h, Scan.moveKey]
  simp only [Bool.false_eq_true, if_false]
  repeat' split
  all_goals rfl

/-! ## The hypotheses are met -/

/-- `edg_srd(?, 1, ??)` on the graph of `Props/Query.lean`, loaded. -/
example : ∃ get, ∃ e ts, edg get 100 ⟨true, true, 9⟩ .spo (-1) 1 (-2) = some e ∧ e.Returns ts ∧ ts.Pairwise (fun a b => Row3.lt (Order.spo.row a) (Order.spo.row b)) ∧
    ∀ t, t ∈ ts ↔ t ∈ exGraph.map T3.triple ∧ Fits (-1) 1 (-2) t := by
  obtain ⟨get, h⟩ := Join.exAnswers
  exact ⟨get, C114_edges_partial h _ _ .spo (by unfold Distinct; omega)⟩

/-- `edg_srd` with one variable for subject and predicate; the memory holds 9. -/
example : ∃ get, ∃ m, ∀ fuel ≥ m, ∃ (e : EdgeItr) (ts : List Triple), edg get fuel ⟨false, false, 9⟩ .spo (-1) (-1) (-2) = some e ∧ e.Returns (ts.map fun t => ⟨9, t.p, t.o⟩) ∧ ts.Nodup ∧
    ∀ t, t ∈ ts ↔ t ∈ exGraph.map T3.triple ∧ t.s = t.p := by
  obtain ⟨get, h⟩ := Join.exAnswers
  exact ⟨get, C114_subject_violated h false 9 (by omega) (by omega) (by omega)⟩

example : ∃ get, ∃ m, ∀ fuel ≥ m, ∃ (e : EdgeItr) (ts : List Triple), edg get fuel ⟨false, false, 9⟩ .spo (-1) 4 (-1) = some e ∧ e.Returns (ts.map fun t => ⟨t.s, 9, t.o⟩) ∧
    ∀ t, t ∈ ts ↔ t ∈ exGraph.map T3.triple ∧ t.p = 4 ∧ t.o = 4 := by
  obtain ⟨get, h⟩ := Join.exAnswers
  exact ⟨get, C114_position_violated h false 9 (by omega) (by omega)⟩

example : ∃ get, ∃ m, ∀ fuel ≥ m, ∃ (e : EdgeItr) (ts : List Triple), edg get fuel ⟨false, false, 9⟩ .spo 2 (-1) (-1) = some e ∧ e.Returns (ts.map fun t => ⟨9, t.p, t.o⟩) ∧
    ∀ t, t ∈ ts ↔ t ∈ exGraph.map T3.triple ∧ (0 ≤ (2 : Int) → t.s = 2) ∧ t.p = t.o := by
  obtain ⟨get, h⟩ := Join.exAnswers
  exact ⟨get, C114_object_violated h false 9 (by omega) (by omega)⟩

example : ∃ get, ∃ e, edg get 100 ⟨false, true, 9⟩ .spo (-1) 4 (-1) = some e ∧ e.Returns [] := by
  obtain ⟨get, h⟩ := Join.exAnswers
  exact ⟨get, C114_used_violated h 100 9 .spo (p := (0, 2)) (by decide)⟩

example : ∃ (kb : KB) (E : Env), ∃ m, ∀ fuel ≥ m, ∃ c, countEdges (kb.getIterator E) (fun _ _ _ => 0) fuel ⟨false, false, 9⟩ (-1) 4 (-1) = some c ∧
    GroupOf (· ∈ exGraph.map T3.triple) (fun t => t.s = t.o) c := by
  obtain ⟨kb, E, h, _⟩ := exAnswersD
  exact ⟨kb, E, C114_count_violated h _ false 9 (by omega) 4 (by omega)⟩

/-- `grp_s(?, ??, ???)`: the subjects with their number of triples. -/
example : ∃ (kb : KB) (E : Env), ∃ m, ∀ fuel ≥ m, ∃ k out, grp1 (kb.getIterator E) fuel ⟨true, true, 9⟩ (true, 7, 3) .s (-1) (-2) (-3) = some k ∧ k.Returns out ∧ (out.map (·.1)).Nodup ∧
    ∀ key c, (key, c) ∈ out ↔ 0 < c ∧ GroupOf (· ∈ exGraph.map T3.triple) (fun t => t.at .s = key) c := by
  obtain ⟨kb, E, h, _⟩ := exAnswersD
  exact ⟨kb, E, C115_one_partial h (steady_stored kb E) _ _ .s (by unfold Distinct; omega) (by omega) (by omega) (by omega)⟩

/-- The subject 2 has two triples. -/
example : GroupOf (· ∈ exGraph.map T3.triple) (fun t => t.at .s = 2) 2 := by
  refine ⟨[⟨2, 1, 70000⟩, ⟨2, 4, 7⟩], by decide, fun t => ⟨fun h => ?_, fun h => ?_⟩, rfl⟩
  · have : ∀ t ∈ [(⟨2, 1, 70000⟩ : Triple), ⟨2, 4, 7⟩], t ∈ exGraph.map T3.triple ∧ t.at .s = 2 := by decide
    exact this t h
  · have : ∀ t ∈ exGraph.map T3.triple, t.at .s = 2 → t ∈ [(⟨2, 1, 70000⟩ : Triple), ⟨2, 4, 7⟩] := by decide
    exact this t h.1 h.2

/-- `grp_sr(2, ?, ??)`. -/
example : ∃ (kb : KB) (E : Env), ∃ m, ∀ fuel ≥ m, ∃ k out, grp2 (kb.getIterator E) fuel ⟨true, true, 9⟩ (true, (7, 7), 3) .spo 2 (-2) (-3) = some k ∧ k.Returns out ∧ (out.map (·.1)).Nodup ∧
    ∀ key c, (key, c) ∈ out ↔ 0 < c ∧ GroupOf (· ∈ exGraph.map T3.triple) (fun t => Fits 2 (-2) (-3) t ∧ (t.at .s, t.at .p) = key) c := by
  obtain ⟨kb, E, h, _⟩ := exAnswersD
  exact ⟨kb, E, C115_two_partial h (steady_stored kb E) _ _ .spo (by unfold Distinct; omega) (by decide) (by decide)⟩

/-- `grp_s(?, 1, ??)`: one group with the key 1. -/
example : ∃ (kb : KB) (E : Env), ∃ m, ∀ fuel ≥ m, ∃ k out, grp1 (kb.getIterator E) fuel ⟨true, true, 9⟩ (true, 7, 3) .s (-1) 1 (-3) = some k ∧ k.Returns out ∧ (out.map (·.1)).Nodup ∧
    ∀ key c, (key, c) ∈ out ↔ key = 1 ∧ 0 < c ∧ GroupOf (· ∈ exGraph.map T3.triple) (fun t => t.p = 1) c := by
  obtain ⟨kb, E, h, _⟩ := exAnswersD
  exact ⟨kb, E, C115_bound_violated h (steady_stored kb E) _ _ (by unfold Distinct; omega) (by omega) (by omega) (by omega)⟩

example : ∃ (kb : KB) (E : Env), ∃ m, ∀ fuel ≥ m, ∃ k out, grp2 (kb.getIterator E) fuel ⟨true, true, 9⟩ (true, (7, 7), 3) .spo (-1) 1 (-3) = some k ∧ k.Returns out ∧
    ∀ key c, (key, c) ∈ out ↔ 0 < c ∧ GroupOf (· ∈ exGraph.map T3.triple) (fun t => Fits (-1) 1 (-3) t ∧ (t.p, t.s) = key) c := by
  obtain ⟨kb, E, h, _⟩ := exAnswersD
  exact ⟨kb, E, C115_swapped_violated h (steady_stored kb E) _ _ (by unfold Distinct; omega) (by omega) (by omega) (by omega)⟩

example : constGroup2 3 10 20 77 = [((20, 77), 3)] := C115_const_violated 3 (by omega) 10 20 77

/-- `pos_srd` on the triples with the predicate 1. -/
example : ∃ (kb : KB) (E : Env), ∃ ts : List Triple, ts.Pairwise (fun a b => Row3.lt (Order.spo.row a) (Order.spo.row b)) ∧ (∀ t, t ∈ ts ↔ t ∈ exGraph.map T3.triple ∧ Fits (-1) 1 (-2) t) ∧
    ∀ i, (h : i + 1 < ts.length) → posEdge (kb.getIterator E) 100 ⟨true, true, 9⟩ .spo (-1) 1 (-2) (i + 1) = some ts[i] := by
  obtain ⟨kb, E, h, _⟩ := exAnswersD
  exact ⟨kb, E, C116_stored_partial h _ _ .spo (by unfold Distinct; omega) (by omega)⟩

example : ∃ get, ∃ ts : List Triple, ts.Pairwise (fun a b => Row3.lt (Order.spo.row a) (Order.spo.row b)) ∧ (∀ t, t ∈ ts ↔ t ∈ exGraph.map T3.triple ∧ Fits (-1) 1 (-2) t) ∧
    ∀ i, ts.length ≤ i → posEdge get 100 ⟨true, true, 9⟩ .spo (-1) 1 (-2) i = none := by
  obtain ⟨get, h⟩ := Join.exAnswers
  exact ⟨get, C116_last_violated h _ _ .spo (by unfold Distinct; omega)⟩

/-- The end of a table of one row that was read; another table follows. -/
example (kb : KB) : (Scan.hasNext kb ⟨some ⟨(5, ⟨0, 0, 0⟩), [(6, ⟨0, 0, 0⟩)]⟩, none, some (.arr [(1, 2)] ⟨1, 1, 2, -1, -1, false, false, false, 1, 0⟩), false, true, 5⟩).2.cur = none :=
  C116_scan_violated kb _ _ rfl rfl rfl

end Trident.Edges
