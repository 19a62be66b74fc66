import Verif.Sparql.IndexScanProofs
import Verif.Props.PlanGen
import Verif.Props.Scan
import Verif.Props.Counts
import Verif.Props.Terms
/-!
# C87: scans of a pattern in an order, from the store

`Join.Answers get G` says that the querier answers queries from the triples `G`; `Join.answers_stored` and `Join.answers_updated` give it for a stored graph and for a graph with
updates.  `Scan.Stores G db` says that `db` lists these triples.
-/
namespace Trident.Sparql.PlanGen
open Analysis (PElem)

/-- **C87.** The scan of a triple pattern in an order, if no variable is twice in it: it ends; its rows are the values of the variables for each triple that fits the pattern, once
for each; and they are sorted by the variable that comes first in the order. -/
theorem C87_scan {get : Nat → Int → Int → Int → QRes} {G : Trident.Triple → Prop} (ha : Join.Answers get G) {db : List Triple} (hdb : Scan.Stores G db)
    (n : Node) (hn : n.vars.Nodup) (o : Ord) (names : List Nat) (hnames : ∀ x ∈ names, x ∈ n.vars) :
    ∃ rows, Scan.Returns get n o names rows ∧ (∀ rows', Scan.Returns get n o names rows' → rows' = rows) ∧ (∀ r ∈ rows, r.1 = 1) ∧
      (rows.map (·.2)).Perm ((db.filter fun d => Spec.fits (Spec.beside n d)).map fun d => names.map fun x => (Spec.value (Spec.beside n d) x).getD 0) ∧
      ∀ x ∈ names, o.slots.findSome? n.varAt = some x → rows.Pairwise fun a b => look names a.2 x ≤ look names b.2 x := by
  obtain ⟨rows, h1, h2, h3⟩ := Scan.scan_rows ha hdb ⟨[n], [], [], []⟩ o false 0 hn names
  have hk : scanSlots .full o = o.slots := by cases o <;> rfl
  have hnode : Query.node ⟨[n], [], [], []⟩ 0 = n := rfl
  refine ⟨rows, h1, fun _ h => Scan.returns_unique h h1, h2, ?_, fun x hx ho => h3.sorted x hx ?_⟩
  · have he : rows.map (·.2) = expand rows := by
      clear h1 h3
      induction rows with
      | nil => rfl
      | cons r l ih => rw [List.map_cons, expand_cons, h2 r (by simp), ih fun r hr => h2 r (by simp [hr])]; rfl
    rw [he]
    refine List.perm_iff_count.2 fun t => ?_
    rw [count_expand, h3.bag, hk, hnode]
    have e1 : db.filter (matchesSlots n o.slots) = db.filter fun d => Spec.fits (Spec.beside n d) := List.filter_congr fun d _ => Scan.matches_fits hn o d
    have e2 : (fun d => names.map (slotValue n o.slots d)) = fun d => names.map fun x => (Spec.value (Spec.beside n d) x).getD 0 :=
      funext fun d => List.map_congr_left fun x hx => Scan.slotValue_value hn o d (hnames x hx)
    rw [e1, e2]
  · unfold scanOrdering
    rw [hk]
    exact ho

/-- The rows of a scan that skips only slots with variables, in terms of the specification. -/
theorem scanRows_spec {db : List Triple} {n : Node} (hn : n.vars.Nodup) {k : Kind} {o : Ord} {names : List Nat} {rows : List Row}
    (h : ScanRows db ⟨[n], [], [], []⟩ k o false 0 names rows) (hskip : ∀ s, s < 3 → s ∉ scanSlots k o → ∃ y, n.slot s = .var y)
    (hnames : ∀ x ∈ names, ∃ s ∈ scanSlots k o, n.varAt s = some x) :
    (rows.flatMap fun r => List.replicate r.1 r.2).Perm
      ((db.filter fun d => Spec.fits (Spec.beside n d)).map fun d => names.map fun x => (Spec.value (Spec.beside n d) x).getD 0) := by
  have hsub : ∀ s ∈ scanSlots k o, s ∈ o.slots := fun s hs => List.mem_of_mem_take hs
  have hlt : ∀ s ∈ o.slots, s < 3 := by cases o <;> decide
  have hin : ∀ s, s < 3 → s ∈ o.slots := by
    intro s hs
    cases o <;> simp only [Ord.slots, List.mem_cons, List.not_mem_nil, or_false] <;> omega
  show (expand rows).Perm _
  refine List.perm_iff_count.2 fun t => ?_
  rw [count_expand, h.bag, show Query.node ⟨[n], [], [], []⟩ 0 = n from rfl]
  have e1 : db.filter (matchesSlots n (scanSlots k o)) = db.filter fun d => Spec.fits (Spec.beside n d) := by
    refine List.filter_congr fun d _ => ?_
    rw [← Scan.matches_fits hn o d]
    unfold matchesSlots
    rw [Bool.eq_iff_iff, List.all_eq_true, List.all_eq_true]
    refine ⟨fun h s hs => ?_, fun h s hs => h s (hsub s hs)⟩
    by_cases hm : s ∈ scanSlots k o
    · exact h s hm
    · obtain ⟨y, hy⟩ := hskip s (hlt s hs) hm
      rw [hy]
  have e2 : (fun d => names.map (slotValue n (scanSlots k o) d)) = fun d => names.map fun x => (Spec.value (Spec.beside n d) x).getD 0 := by
    refine funext fun d => List.map_congr_left fun x hx => ?_
    obtain ⟨s, hs, hv⟩ := hnames x hx
    have h3 := hlt s (hsub s hs)
    rw [slotValue_eq hn h3 hs hv, ← slotValue_eq hn h3 (hin s h3) hv (t := d)]
    exact Scan.slotValue_value hn o d (List.mem_filterMap.2 ⟨s, by simp only [List.mem_cons, List.not_mem_nil, or_false]; omega, hv⟩)
  rw [e1, e2]

/-- **C87** for scans that skip the last column of the order, if it has a variable: the rows with their counts are the values of the other variables for each triple that fits the
pattern. -/
theorem C87_skip_last {getD : Nat → Int → Int → Int → QRes} {db : List Triple} (hd : AnswersD getD (db.map Scan.cast)) (n : Node) (hn : n.vars.Nodup) (o : Ord) (y : Nat)
    (hlast : n.slot (o.slots.getD 2 0) = .var y) (names : List Nat) (hnames : ∀ x ∈ names, x ∈ n.vars ∧ x ≠ y) :
    ∃ rows, Scan.ReturnsAggr getD n o names rows ∧ (∀ rows', Scan.ReturnsAggr getD n o names rows' → rows' = rows) ∧
      (rows.flatMap fun r => List.replicate r.1 r.2).Perm
        ((db.filter fun d => Spec.fits (Spec.beside n d)).map fun d => names.map fun x => (Spec.value (Spec.beside n d) x).getD 0) := by
  obtain ⟨rows, h1, h2⟩ := Scan.scan_rows_aggr hd ⟨[n], [], [], []⟩ o false 0 hn names
  refine ⟨rows, h1, fun _ h => Scan.returnsAggr_unique h h1, scanRows_spec hn h2 (fun s hs hm => ⟨y, ?_⟩) fun x hx => ?_⟩
  · have : s = o.slots.getD 2 0 := by
      rw [Scan.slots_aggr] at hm
      cases o <;> simp [Ord.slots] at hm ⊢ <;> omega
    rw [this, hlast]
  · obtain ⟨hx, hy⟩ := hnames x hx
    obtain ⟨s, hs, hv⟩ := List.mem_filterMap.1 hx
    refine ⟨s, ?_, hv⟩
    have hne : s ≠ o.slots.getD 2 0 := by
      rintro rfl
      rw [varAt_slot, hlast] at hv
      exact hy (PElem.var.inj hv).symm
    rw [Scan.slots_aggr]
    simp only [List.mem_cons, List.not_mem_nil, or_false] at hs
    cases o <;> simp [Ord.slots] at hne ⊢ <;> omega

/-- **C87** for scans that skip the last two columns of the order, if all three have variables. -/
theorem C87_skip_last_two {getT : Nat → Option Obj} {db : List Triple} (ht : Scan.AnswersT getT (db.map Scan.cast)) (x y z : Nat) (hn : (Node.vars (.var x, .var y, .var z)).Nodup)
    (o : Ord) (v : Nat) (hv : Node.slot (.var x, .var y, .var z) (o.slots.getD 0 0) = .var v) :
    ∃ rows, Scan.ReturnsFully getT (.var x, .var y, .var z) o [v] rows ∧ (∀ rows', Scan.ReturnsFully getT (.var x, .var y, .var z) o [v] rows' → rows' = rows) ∧
      (rows.flatMap fun r => List.replicate r.1 r.2).Perm (db.map fun d => [d.slot (o.slots.getD 0 0)]) := by
  have hva := varAt_slot.2 hv
  obtain ⟨rows, h1, h2⟩ := Scan.scan_rows_fully ht ⟨[(.var x, .var y, .var z)], [], [], []⟩ o 0 hn (fun _ => ⟨rfl, by
    rw [Scan.slots_fully, List.filterMap_cons, show (Query.node ⟨[(.var x, .var y, .var z)], [], [], []⟩ 0).varAt _ = some v from hva]; simp⟩) [v]
  refine ⟨rows, h1, fun _ h => Scan.returnsFully_unique h h1, List.perm_iff_count.2 fun t => ?_⟩
  show (expand rows).count t = _
  rw [count_expand, h2.bag, show Query.node ⟨[(.var x, .var y, .var z)], [], [], []⟩ 0 = (.var x, .var y, .var z) from rfl,
    List.filter_eq_self.2 fun d _ => by cases o <;> rfl]
  congr 1
  refine List.map_congr_left fun d _ => ?_
  rw [List.map_cons, List.map_nil, slotValue_eq hn (by cases o <;> decide) (by cases o <;> decide) hva]

/-- The scans of a plan, when they are answered by the querier `get`: only scans without aggregation. -/
def fullScans (get : Nat → Int → Int → Int → QRes) (q : Query) (k : Kind) (o : Ord) (_ : Bool) (i : Nat) (names : List Nat) (rows : List Row) : Prop :=
  k = .full ∧ Scan.Returns get (q.node i) o names rows

/-- Without variables that are nowhere else, no scan is aggregated. -/
theorem scans_full {q : Query} (hall : ∀ i n, q.nodes[i]? = some n → ∀ x, .var x ∈ [n.1, n.2.1, n.2.2] → Spec.Elsewhere q i x) {k : Kind} {o : Ord} {i : Nat}
    (hw : WF q (.scan k o false i)) : k = .full := by
  have key : ∀ s, s < 3 → s ∉ scanSlots k o → False := by
    intro s hs hm
    obtain ⟨x, hx, hu⟩ := unusedAt_var (hw.2.2.1 s hm hs)
    have hi : q.nodes[i]? = some (q.node i) := by unfold Query.node; rw [List.getElem?_eq_getElem hw.2.1]; rfl
    have := elsewhere_of (hall i _ hi x (hx ▸ by match s, hs with | 0, _ => simp [Node.slot] | 1, _ => simp [Node.slot] | 2, _ => simp [Node.slot]))
    rw [this] at hu
    cases hu
  cases k with
  | full => rfl
  | aggr => exact (key (o.slots.getD 2 0) (by cases o <;> decide) (by cases o <;> decide)).elim
  | fully => exact (key (o.slots.getD 2 0) (by cases o <;> decide) (by cases o <;> decide)).elim

/-- **C87** for queries in which each variable of a pattern is projected, ordered by, in a condition or in another pattern: with the scans of the store, the plan of the query can be
executed, and what is printed are the answers from the stored triples. -/
theorem C87_answers_partial {get : Nat → Int → Int → Int → QRes} {G : Trident.Triple → Prop} (ha : Join.Answers get G) {db : List Triple} (hdb : Scan.Stores G db)
    (E : Est) (hE : E.Fair) (hrange : ∀ t ∈ db, t.1 < 2 ^ 64 ∧ t.2.1 < 2 ^ 64 ∧ t.2.2 < 2 ^ 64)
    (q : Query) (hne : q.nodes ≠ []) (hwidth : q.nodes.length ≤ 64) (hvars : ∀ n ∈ q.nodes, n.vars.Nodup)
    (hall : ∀ i n, q.nodes[i]? = some n → ∀ x, .var x ∈ [n.1, n.2.1, n.2.2] → Spec.Elsewhere q i x)
    (hfilters : ∀ f ∈ q.filters, ∀ g g' : Nat → Option Nat, (∀ x ∈ f.vars, g x = g' x) → f.holds g = f.holds g') (hsafe : ∀ f ∈ q.filters, Spec.Safe db q.nodes f) :
    ∃ p, translate E q = some p ∧ (∃ out, AnswersOn (fullScans get q) q p out) ∧
      ∀ out, AnswersOn (fullScans get q) q p out → (out.flatMap fun r => List.replicate r.1 r.2).Perm (Spec.answers db q) := by
  have htied : Spec.Tied q := fun i n hn _ x _ _ hx _ => .inl (hall i n hn x hx)
  have hS : ScansOf (fullScans get q) db q := by
    intro k o i hw _ names
    have hk := scans_full hall hw
    subst hk
    obtain ⟨rows, h1, _, h3⟩ := Scan.scan_rows ha hdb q o false i (hvars _ (node_mem hw.2.1)) names
    exact ⟨⟨rows, rfl, h1⟩, fun rows' h => Scan.returns_unique h1 h.2 ▸ h3⟩
  obtain ⟨p, hp, _, hout⟩ := C85_answers_partial E hE db hrange q hne hwidth hvars htied hfilters hsafe
  obtain ⟨p', hp', hf⟩ := translate_final hE hne hwidth
  rw [hp] at hp'
  cases hp'
  obtain ⟨hw, hW, hU⟩ := final_wf hf
  refine ⟨p, hp, ?_, ?_⟩
  · obtain ⟨rows, h⟩ := exec_exists_on hS ⟨hvars, hfilters⟩ htied hrange hsafe hw hW hU
    exact ⟨_, rows, h, rfl⟩
  · rintro out ⟨rows, h, rfl⟩
    exact hout _ ⟨rows, exec_mono hS h hw, rfl⟩

/-- The scans of a plan, when they are answered by the querier: `get` for scans without aggregation, `getD` for those that skip the last column and `getT` for those that skip the last
two. -/
def storeScans (get getD : Nat → Int → Int → Int → QRes) (getT : Nat → Option Obj) (q : Query) (k : Kind) (o : Ord) (_ : Bool) (i : Nat) (names : List Nat) (rows : List Row) : Prop :=
  match k with
  | .full => Scan.Returns get (q.node i) o names rows
  | .aggr => Scan.ReturnsAggr getD (q.node i) o names rows
  | .fully => Scan.ReturnsFully getT (q.node i) o names rows

theorem scansOf_store {get getD : Nat → Int → Int → Int → QRes} {getT : Nat → Option Obj} {G : Trident.Triple → Prop} (ha : Join.Answers get G) {db : List Triple}
    (hdb : Scan.Stores G db) (hd : AnswersD getD (db.map Scan.cast)) (ht : Scan.AnswersT getT (db.map Scan.cast)) {q : Query} (hvars : ∀ n ∈ q.nodes, n.vars.Nodup) :
    ScansOf (storeScans get getD getT q) db q := by
  intro k o i hw hs names
  cases k with
  | full =>
    obtain ⟨rows, h1, _, h3⟩ := Scan.scan_rows ha hdb q o false i (hvars _ (node_mem hw.2.1)) names
    exact ⟨⟨rows, h1⟩, fun rows' h => Scan.returns_unique h1 h ▸ h3⟩
  | aggr =>
    obtain ⟨rows, h1, h3⟩ := Scan.scan_rows_aggr hd q o false i (hvars _ (node_mem hw.2.1)) names
    exact ⟨⟨rows, h1⟩, fun rows' h => Scan.returnsAggr_unique h1 h ▸ h3⟩
  | fully =>
    obtain ⟨rows, h1, h3⟩ := Scan.scan_rows_fully ht q o i (hvars _ (node_mem hw.2.1)) hs names
    exact ⟨⟨rows, h1⟩, fun rows' h => Scan.returnsFully_unique h1 h ▸ h3⟩

/-- **C87** for all queries of C85: with the scans of the store, aggregated or not, the plan of the query can be executed, and what is printed are the answers from the stored triples. -/
theorem C87_aggregated_partial {get getD : Nat → Int → Int → Int → QRes} {getT : Nat → Option Obj} {G : Trident.Triple → Prop} (ha : Join.Answers get G) {db : List Triple}
    (hdb : Scan.Stores G db) (hd : AnswersD getD (db.map Scan.cast)) (ht : Scan.AnswersT getT (db.map Scan.cast))
    (E : Est) (hE : E.Fair) (hrange : ∀ t ∈ db, t.1 < 2 ^ 64 ∧ t.2.1 < 2 ^ 64 ∧ t.2.2 < 2 ^ 64)
    (q : Query) (hne : q.nodes ≠ []) (hwidth : q.nodes.length ≤ 64) (hvars : ∀ n ∈ q.nodes, n.vars.Nodup) (htied : Spec.Tied q)
    (hfilters : ∀ f ∈ q.filters, ∀ g g' : Nat → Option Nat, (∀ x ∈ f.vars, g x = g' x) → f.holds g = f.holds g') (hsafe : ∀ f ∈ q.filters, Spec.Safe db q.nodes f) :
    ∃ p, translate E q = some p ∧ (∃ out, AnswersOn (storeScans get getD getT q) q p out) ∧
      ∀ out, AnswersOn (storeScans get getD getT q) q p out → (out.flatMap fun r => List.replicate r.1 r.2).Perm (Spec.answers db q) := by
  have hS := scansOf_store ha hdb hd ht hvars
  obtain ⟨p, hp, _, hout⟩ := C85_answers_partial E hE db hrange q hne hwidth hvars htied hfilters hsafe
  obtain ⟨p', hp', hf⟩ := translate_final hE hne hwidth
  rw [hp] at hp'
  cases hp'
  obtain ⟨hw, hW, hU⟩ := final_wf hf
  refine ⟨p, hp, ?_, ?_⟩
  · obtain ⟨rows, h⟩ := exec_exists_on hS ⟨hvars, hfilters⟩ htied hrange hsafe hw hW hU
    exact ⟨_, rows, h, rfl⟩
  · rintro out ⟨rows, h, rfl⟩
    exact hout _ ⟨rows, exec_mono hS h hw, rfl⟩

/-- **C87**: load any triples with settings under which each order can be read (three or six indices), open the store, and run a query. -/
theorem C87_load_then_query_partial (c : Load.Config) (g : List Load.T3) (h : c.Ok g) (hg : g ≠ []) (hall : c.nindices = 3 ∨ c.nindices = 6) {m : Mem} {M : Nat → Load.Maps}
    (hM : ∀ i, i < 6 → Load.Mapped m (M i) (c.ins g i).store.files) (V : Env) (hV : SortsPairs V.sortP) (hf : g.length < V.fuel) (srt : List Int → List Int)
    (E : Est) (hE : E.Fair) (q : Query) (hne : q.nodes ≠ []) (hwidth : q.nodes.length ≤ 64) (hvars : ∀ n ∈ q.nodes, n.vars.Nodup) (htied : Spec.Tied q)
    (hfilters : ∀ f ∈ q.filters, ∀ g g' : Nat → Option Nat, (∀ x ∈ f.vars, g x = g' x) → f.holds g = f.holds g')
    (db : List Triple) (hnd : db.Nodup) (hdb : ∀ t, t ∈ db ↔ t ∈ g) (hsafe : ∀ f ∈ q.filters, Spec.Safe db q.nodes f) :
    ∃ p, translate E q = some p ∧
      (∃ out, AnswersOn (storeScans ((c.open' g m M).getIterator V) ((c.open' g m M).getIteratorD V) ((c.open' g m M).terms V srt (c.counts g).nel) q) q p out) ∧
      ∀ out, AnswersOn (storeScans ((c.open' g m M).getIterator V) ((c.open' g m M).getIteratorD V) ((c.open' g m M).terms V srt (c.counts g).nel) q) q p out →
        (out.flatMap fun r => List.replicate r.1 r.2).Perm (Spec.answers db q) := by
  have hr : ∀ d, (c.open' g m M).Reads d := by
    intro d
    unfold KB.Reads
    show Load.permsOf c.nindices d.idx = true ∨ d.idx ≥ 3 ∧ Load.permsOf c.nindices (d.idx - 3) = true
    rcases hall with e | e <;> rw [e] <;> cases d <;> decide
  have hl := h.loaded hM
  have hne' : g.map Load.T3.triple ≠ [] := by simpa using hg
  have hcast : ∀ t : Load.T3, t.triple = Scan.cast t := fun _ => rfl
  have hn : (db.map Scan.cast).Nodup := by
    rw [List.Nodup, List.pairwise_map]
    exact hnd.imp fun h e => h (Scan.cast_inj e)
  have hmem : ∀ t, t ∈ db.map Scan.cast ↔ t ∈ g.map Load.T3.triple := by
    intro t
    rw [List.mem_map, List.mem_map]
    exact ⟨fun ⟨d, hd, e⟩ => ⟨d, (hdb d).1 hd, e⟩, fun ⟨d, hd, e⟩ => ⟨d, (hdb d).2 hd, e⟩⟩
  refine C87_aggregated_partial (Join.answers_stored hl hV (by simpa using hf) hne' hr) (G := (· ∈ g.map Load.T3.triple)) ⟨hnd, fun t => ?_⟩
    (answersD_stored hl hV (by simpa using hf) hne' hr hn hmem) (answersT_stored c g h hg hM V srt hn hmem hr) E hE ?_ q hne hwidth hvars htied hfilters hsafe
  · rw [← hmem, List.mem_map]
    exact ⟨fun ⟨d, hd, e⟩ => ⟨d, hd, e.symm⟩, fun ⟨d, hd, e⟩ => ⟨d, hd, e.symm⟩⟩
  · intro t ht
    have := h.ids t ((hdb t).1 ht)
    omega

/-! ## The hypotheses can be met -/

/-- The triples of `exGraph`, each once. -/
def exStored : List Triple := [(7, 1, 300), (2, 1, 70000), (2, 4, 7), (7, 1, 2)]

theorem exStores : Scan.Stores (· ∈ exGraph.map Load.T3.triple) exStored where
  nodup := by decide
  mem := by
    have h1 : ∀ t ∈ exGraph.map Load.T3.triple, ∃ d ∈ exStored, t = Scan.cast d := by decide
    have h2 : ∀ d ∈ exStored, Scan.cast d ∈ exGraph.map Load.T3.triple := by decide
    exact fun t => ⟨h1 t, fun ⟨d, hd, e⟩ => e ▸ h2 d hd⟩

/-- `?0 1 ?1` in the order predicate, object, subject. -/
example : ∃ get rows, Scan.Returns get (.var 0, .const 1, .var 1) .pos [0, 1] rows ∧
    (rows.map (·.2)).Perm [[7, 300], [2, 70000], [7, 2]] ∧ rows.Pairwise fun a b => look [0, 1] a.2 1 ≤ look [0, 1] b.2 1 := by
  obtain ⟨get, h⟩ := Join.exAnswers
  obtain ⟨rows, h1, -, -, h2, h3⟩ := C87_scan h exStores (.var 0, .const 1, .var 1) (by decide) .pos [0, 1] (by decide)
  refine ⟨get, rows, h1, ?_, h3 1 (by decide) (by decide)⟩
  have e : ((exStored.filter fun d => Spec.fits (Spec.beside (.var 0, .const 1, .var 1) d)).map fun d =>
      [0, 1].map fun x => (Spec.value (Spec.beside (.var 0, .const 1, .var 1) d) x).getD 0) = [[7, 300], [2, 70000], [7, 2]] := by decide +kernel
  rwa [e] at h2

/-- `SELECT ?0 ?1 ?2 { ?0 1 ?1 . ?0 ?2 7 }`. -/
def exStoredQuery : Query := ⟨[(.var 0, .const 1, .var 1), (.var 0, .var 2, .const 7)], [], [0, 1, 2], []⟩

example : ∃ get p, translate exampleEst exStoredQuery = some p ∧ (∃ out, AnswersOn (fullScans get exStoredQuery) exStoredQuery p out) ∧
    ∀ out, AnswersOn (fullScans get exStoredQuery) exStoredQuery p out → (out.flatMap fun r => List.replicate r.1 r.2).Perm [[some 2, some 70000, some 4]] := by
  obtain ⟨get, h⟩ := Join.exAnswers
  refine ⟨get, ?_⟩
  have e : Spec.answers exStored exStoredQuery = [[some 2, some 70000, some 4]] := by decide +kernel
  rw [← e]
  refine C87_answers_partial h exStores exampleEst ⟨fun (c : Nat) => decide_eq_true (Nat.le_refl c), fun _ _ _ => rfl⟩ (by decide) _ (by decide) (by decide) (by decide) ?_
    (by intro f hf; cases hf) (by intro f hf; cases hf)
  intro i n hn x hx
  refine .inl ?_
  match i with
  | 0 => cases hn; simp only [List.mem_cons, List.not_mem_nil, or_false, PElem.var.injEq, reduceCtorEq, false_or] at hx; rcases hx with rfl | rfl <;> decide
  | 1 => cases hn; simp only [List.mem_cons, List.not_mem_nil, or_false, PElem.var.injEq, reduceCtorEq] at hx; rcases hx with rfl | rfl <;> decide
  | i + 2 => cases hn

/-- The hypotheses of `C87_skip_last` are met: `?0 1 ?1` in the order predicate, subject, object, for the subjects. -/
example : ∃ getD rows, Scan.ReturnsAggr getD (.var 0, .const 1, .var 1) .pso [0] rows ∧ (rows.flatMap fun r => List.replicate r.1 r.2).Perm [[7], [2], [7]] := by
  obtain ⟨kb, E, -, h⟩ := exAnswersD
  obtain ⟨rows, h1, -, h2⟩ := C87_skip_last (db := exStored) h (.var 0, .const 1, .var 1) (by decide) .pso 1 rfl [0] (by decide)
  exact ⟨_, rows, h1, h2⟩

theorem exFair : exampleEst.Fair := ⟨fun (c : Nat) => decide_eq_true (Nat.le_refl c), fun _ _ _ => rfl⟩

/-- `SELECT ?1 { ?0 ?1 ?2 }`. -/
def exPredicates : Query := ⟨[(.var 0, .var 1, .var 2)], [], [1], []⟩

theorem exPredicates_tied : Spec.Tied exPredicates := by
  intro i n hn hk
  match i with
  | 0 => cases hn; obtain ⟨k, hk⟩ := hk; simp at hk
  | i + 1 => cases hn

/-- The hypotheses of `C87_load_then_query_partial` are met, with the example graph, six indices and a query whose plan is a scan that skips two columns. -/
example : ∃ (m : Mem) (M : Nat → Load.Maps), (∀ i, i < 6 → Load.Mapped m (M i) (exConfig.ins exGraph i).store.files) ∧
    ∃ out, AnswersOn (storeScans ((exConfig.open' exGraph m M).getIterator ⟨isort, msort, 100⟩) ((exConfig.open' exGraph m M).getIteratorD ⟨isort, msort, 100⟩)
      ((exConfig.open' exGraph m M).terms ⟨isort, msort, 100⟩ sortInts (exConfig.counts exGraph).nel) exPredicates) exPredicates (.scan .fully .pso false 0) out ∧
      (out.flatMap fun r => List.replicate r.1 r.2).Perm [[some 1], [some 1], [some 4], [some 1]] := by
  obtain ⟨m, M, hM⟩ := Load.exists_mapped fun i => (exConfig.ins exGraph i).store.files
  have hmem : ∀ t, t ∈ exStored ↔ t ∈ exGraph := by
    have h1 : ∀ t ∈ exStored, t ∈ exGraph := by decide
    have h2 : ∀ t ∈ exGraph, t ∈ exStored := by decide
    exact fun t => ⟨h1 t, h2 t⟩
  obtain ⟨p, hp, ⟨out, h1⟩, h2⟩ := C87_load_then_query_partial exConfig exGraph exOk (by decide) (.inr rfl) hM ⟨isort, msort, 100⟩ isort_sorts (show 5 < 100 by omega) sortInts
    exampleEst exFair exPredicates (by decide) (by decide) (by decide) exPredicates_tied (by intro f hf; cases hf) exStored (by decide) hmem (by intro f hf; cases hf)
  have e : translate exampleEst exPredicates = some (.scan .fully .pso false 0) := by decide +kernel
  rw [e] at hp
  cases hp
  exact ⟨m, M, hM, out, h1, h2 out h1⟩

/-! ## Where it is false -/

/-- What is printed for `exPredicates`, if the list of the predicates is `l`. -/
theorem exPredicates_out {get getD : Nat → Int → Int → Int → QRes} {getT : Nat → Option Obj} {it : Obj} {l : List Pair} (h : getT Order.pso.idx = some it) (hl : it.Returns l)
    (out : List (Nat × List (Option Nat))) :
    AnswersOn (storeScans get getD getT exPredicates) exPredicates (.scan .fully .pso false 0) out ↔ out = l.map fun r => (r.2.toNat, [some r.1.toNat]) := by
  have hr : Scan.ReturnsFully getT (.var 0, .var 1, .var 2) .pso [1] (l.map fun r => (r.2.toNat, [r.1.toNat])) := ⟨it, rfl, h, Scan.runs_stepFully hl⟩
  have hcols : cols exPredicates (setOf (exPredicates.projection ++ exPredicates.order)) (.scan .fully .pso false 0) = [1] := by decide +kernel
  have hs : Starts exPredicates .fully .pso false 0 := fun _ => ⟨rfl, by decide⟩
  have key : ∀ rows, (∃ r', ExecOn (storeScans get getD getT exPredicates) exPredicates (setOf (exPredicates.projection ++ exPredicates.order)) (.scan .fully .pso false 0) r' ∧ r' = rows) ↔
      rows = l.map fun r => (r.2.toNat, [r.1.toNat]) := by
    intro rows
    constructor
    · rintro ⟨_, hx, rfl⟩
      cases hx with
      | scan _ hx =>
        rw [hcols] at hx
        exact Scan.returnsFully_unique hx hr
    · rintro rfl
      exact ⟨_, .scan hs (by rw [hcols]; exact hr), rfl⟩
  have hmap : (l.map fun r => (r.2.toNat, [r.1.toNat])).map (fun r : Row => (r.1, exPredicates.projection.map fun x => if ([1] : List Nat).contains x then some (look [1] r.2 x) else none)) =
      l.map fun r => (r.2.toNat, [some r.1.toNat]) := by
    rw [List.map_map]
    rfl
  unfold AnswersOn
  rw [hcols, ← hmap]
  constructor
  · rintro ⟨rows, hx, rfl⟩
    rw [(key rows).1 ⟨_, hx, rfl⟩]
  · rintro rfl
    obtain ⟨_, hx, rfl⟩ := (key _).2 rfl
    exact ⟨_, hx, rfl⟩

/-- **C87** is false with one index: `SELECT ?1 { ?0 ?1 ?2 }` over the example graph prints each predicate once, although predicate 1 is in three triples. -/
theorem C87_absent_order_violated : ∃ (m : Mem) (M : Nat → Load.Maps), (∀ i, i < 6 → Load.Mapped m (M i) (exConfig1.ins exGraph i).store.files) ∧
    translate exampleEst exPredicates = some (.scan .fully .pso false 0) ∧
    (∀ out, AnswersOn (storeScans ((exConfig1.open' exGraph m M).getIterator ⟨isort, msort, 100⟩) ((exConfig1.open' exGraph m M).getIteratorD ⟨isort, msort, 100⟩)
      ((exConfig1.open' exGraph m M).terms ⟨isort, msort, 100⟩ sortInts (exConfig1.counts exGraph).nel) exPredicates) exPredicates (.scan .fully .pso false 0) out ↔
      out = [(1, [some 1]), (1, [some 4])]) ∧
    Spec.answers exStored exPredicates = [[some 1], [some 1], [some 4], [some 1]] := by
  obtain ⟨m, M, hM, o, out, h1, h2, rfl, -, -⟩ := C19_absent_order_violated
  exact ⟨m, M, hM, by decide +kernel, exPredicates_out h1 h2, by decide +kernel⟩

/-- **C87** is false after an addition without new predicates: the graph is (1 2 3); after (4 2 3) is added, `SELECT ?1 { ?0 ?1 ?2 }` prints the predicate 2 once. -/
theorem C87_addition_violated :
    let g : List Trident.Triple := [⟨1, 2, 3⟩]
    let us : List Update := [.add [⟨4, 2, 3⟩]]
    FreshAll g us ∧ ∃ uds, uds.map (·.1) = us ∧ Recorded msort 9 .pso (Obj.keys (tally (g.map Order.pso.key))) uds ∧
      translate exampleEst exPredicates = some (.scan .fully .pso false 0) ∧
      (∀ get getD getT, getT Order.pso.idx = some (getTermList msort 9 Order.pso.idx (Obj.keys (tally (g.map Order.pso.key))) (uds.map (·.2))) →
        ∀ out, AnswersOn (storeScans get getD getT exPredicates) exPredicates (.scan .fully .pso false 0) out ↔ out = [(1, [some 2])]) ∧
      (applyAll g us).Perm ([(1, 2, 3), (4, 2, 3)].map Scan.cast) ∧ Spec.answers [(1, 2, 3), (4, 2, 3)] exPredicates = [[some 2], [some 2]] := by
  intro g us
  refine ⟨⟨⟨by decide, by decide⟩, trivial⟩, [(.add [⟨4, 2, 3⟩], storedTerms (.add [⟨4, 2, 3⟩]) 0)], rfl, recorded_snoc .nil _ 0 (by decide +kernel), by decide +kernel,
    fun get getD getT h => exPredicates_out (l := [(2, 1)]) h ?_, by decide, by decide +kernel⟩
  show Yields _ _ _
  rw [yields_cons, yields_nil]
  decide +kernel

end Trident.Sparql.PlanGen
