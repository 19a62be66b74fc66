import Verif.Snap.ShortPath
/-!
# C121: shortest paths
-/
namespace Trident.Snap

/-- `Walk E src v k`: there is a walk of `k` edges from `src` to `v` in the graph with the edges
`E`, whatever the directions of the edges. -/
inductive Walk (E : Nat → Nat → Prop) (src : Nat) : Nat → Nat → Prop
  | nil : Walk E src src 0
  | step {v w k} : Walk E src v k → (E v w ∨ E w v) → Walk E src w (k + 1)

/-- `k` is the distance of `v`: the length of a shortest walk. -/
def IsDist (E : Nat → Nat → Prop) (src v k : Nat) : Prop := Walk E src v k ∧ ∀ j, Walk E src v j → k ≤ j

/-- The lists of neighbours of the graph with the edges `E`, whose nodes are below `n`. -/
structure Graph (outs ins : Nat → List Nat) (n : Nat) (E : Nat → Nat → Prop) : Prop where
  outs : ∀ v w, w ∈ outs v ↔ E v w
  ins : ∀ v w, w ∈ ins v ↔ E w v
  nodes : ∀ v w, E v w → v < n ∧ w < n

/-- What holds during the search. `D` is the distance of the current node; the nodes in `ex` may
have neighbours that were not seen. -/
structure Inv (E : Nat → Nat → Prop) (src dst n D : Nat) (ex : List Nat) (s : Search) : Prop where
  right : ∀ v d, s.dist v = some d → IsDist E src v d
  queued : ∀ v ∈ s.queue, ∃ d, s.dist v = some d ∧ D ≤ d ∧ d ≤ D + 1
  sorted : s.queue.Pairwise fun a b => (s.dist a).getD 0 ≤ (s.dist b).getD 0
  closed : ∀ v d, s.dist v = some d → v ∉ s.queue → v ∉ ex → ∀ w, E v w ∨ E w v → s.dist w ≠ none
  mx : s.mx ≤ D + 1
  dst : s.dist dst = none
  src : s.dist src ≠ none
  node : ∀ v d, s.dist v = some d → v < n

/-- Nodes up to the distance of the current node were seen. -/
theorem Inv.seen {E : Nat → Nat → Prop} {src dst n D cur : Nat} {s : Search} (h : Inv E src dst n D [cur] s)
    (hc : s.dist cur = some D) {v k : Nat} (hw : Walk E src v k) : k ≤ D → s.dist v ≠ none := by
  induction hw with
  | nil => exact fun _ => h.src
  | @step u w k hu he ih =>
    intro hk
    obtain ⟨d, hd⟩ := Option.ne_none_iff_exists'.1 (ih (by omega))
    have hm := (h.right u d hd).2 k hu
    refine h.closed u d hd (fun hq => ?_) (fun hx => ?_) w he
    · obtain ⟨d', h1, h2, _⟩ := h.queued u hq
      rw [hd] at h1
      cases h1
      omega
    · rw [List.mem_singleton.1 hx, hc] at hd
      cases hd
      omega

/-- The number of nodes that were not seen. -/
def unseen (n : Nat) (f : Nat → Option Nat) : Nat := ((List.range n).filter fun v => (f v).isNone).length

theorem unseen_set {f : Nat → Option Nat} {w d : Nat} (hf : f w = none) (n : Nat) (hw : w < n) :
    unseen n (setDist f w d) + 1 = unseen n f := by
  have same : ∀ n, n ≤ w → unseen n (setDist f w d) = unseen n f := by
    intro n hn
    unfold unseen
    congr 1
    apply List.filter_congr
    intro v hv
    have := List.mem_range.1 hv
    simp only [setDist]
    rw [if_neg (by omega)]
  induction n with
  | zero => omega
  | succ n ih =>
    have hs : ∀ g : Nat → Option Nat, unseen (n + 1) g = unseen n g + if (g n).isNone then 1 else 0 := by
      intro g
      unfold unseen
      rw [List.range_succ, List.filter_append, List.length_append]
      congr 1
      cases h : (g n).isNone <;> simp [h]
    rw [hs, hs]
    by_cases h : w = n
    · subst h
      rw [same w (Nat.le_refl _), hf]
      simp [setDist]
    · have := ih (by omega)
      have e : setDist f w d n = f n := by simp only [setDist]; rw [if_neg (by omega)]
      rw [e]
      omega

/-- The loops over the neighbours of the current node. -/
theorem visit_spec {E : Nat → Nat → Prop} {src dst n D cur : Nat} (hn : ∀ v w, E v w → v < n ∧ w < n)
    (ws : List Nat) : ∀ s : Search, Inv E src dst n D [cur] s → s.dist cur = some D →
    (∀ w ∈ ws, E cur w ∨ E w cur) →
    (∀ r, visit dst D ws s = .inl r → r = D + 1 ∧ IsDist E src dst (D + 1)) ∧
    (∀ s', visit dst D ws s = .inr s' → Inv E src dst n D [cur] s' ∧ (∀ w ∈ ws, s'.dist w ≠ none) ∧
      (∀ w, s.dist w ≠ none → s'.dist w ≠ none) ∧
      unseen n s'.dist + s'.queue.length = unseen n s.dist + s.queue.length) := by
  induction ws with
  | nil =>
    intro s h hc _
    refine ⟨fun r h => by simp [visit] at h, fun s' h' => ?_⟩
    simp only [visit, Sum.inr.injEq] at h'
    subst h'
    exact ⟨h, by simp, fun _ h => h, rfl⟩
  | cons w ws ih =>
    intro s h hc hw
    have hadj := hw w List.mem_cons_self
    have hws := fun a ha => hw a (List.mem_cons_of_mem _ ha)
    cases hd : s.dist w with
    | some d =>
      have hv : visit dst D (w :: ws) s = visit dst D ws s := by simp [visit, hd]
      rw [hv]
      refine ⟨(ih s h hc hws).1, fun s' h' => ?_⟩
      obtain ⟨a, b, c, e⟩ := (ih s h hc hws).2 s' h'
      refine ⟨a, fun x hx => ?_, c, e⟩
      rcases List.mem_cons.1 hx with rfl | hx
      · exact c x (by rw [hd]; simp)
      · exact b x hx
    | none =>
      have hdist : IsDist E src w (D + 1) := by
        refine ⟨.step (h.right cur D hc).1 hadj, fun j hj => ?_⟩
        rcases Nat.lt_or_ge j (D + 1) with h1 | h1
        · exact absurd hd (h.seen hc hj (by omega))
        · exact h1
      have hmx : max s.mx (D + 1) = D + 1 := Nat.max_eq_right h.mx
      by_cases hwd : w = dst
      · subst hwd
        have hv : visit w D (w :: ws) s = .inl (D + 1) := by simp [visit, hd, hmx]
        rw [hv]
        exact ⟨fun r hr => by cases hr; exact ⟨rfl, hdist⟩, fun s' h' => by cases h'⟩
      · have hv : visit dst D (w :: ws) s = visit dst D ws ⟨setDist s.dist w (D + 1), s.queue ++ [w], D + 1⟩ := by
          simp [visit, hd, hwd, hmx]
        have keep : ∀ v, v ≠ w → setDist s.dist w (D + 1) v = s.dist v := fun v hv => by simp [setDist, hv]
        have self : setDist s.dist w (D + 1) w = some (D + 1) := by simp [setDist]
        have hq : ∀ v ∈ s.queue, v ≠ w := by
          intro v hv he
          obtain ⟨d, h1, _⟩ := h.queued v hv
          rw [he, hd] at h1
          cases h1
        have hwn : w < n := by
          rcases hadj with h1 | h1
          · exact (hn _ _ h1).2
          · exact (hn _ _ h1).1
        have hcw : cur ≠ w := by
          intro he
          rw [he, hd] at hc
          cases hc
        have hinv : Inv E src dst n D [cur] ⟨setDist s.dist w (D + 1), s.queue ++ [w], D + 1⟩ := by
          constructor
          · intro v d hvd
            by_cases hvw : v = w
            · subst hvw
              simp only [self, Option.some.injEq] at hvd
              subst hvd
              exact hdist
            · exact h.right v d (by rw [← keep v hvw]; exact hvd)
          · intro v hv
            rcases List.mem_append.1 hv with hv | hv
            · obtain ⟨d, h1, h2⟩ := h.queued v hv
              exact ⟨d, by simp only; rw [keep v (hq v hv)]; exact h1, h2⟩
            · rw [List.mem_singleton.1 hv]
              exact ⟨D + 1, self, by omega, by omega⟩
          · simp only
            rw [List.pairwise_append]
            refine ⟨?_, by simp, ?_⟩
            · refine List.Pairwise.imp_of_mem ?_ h.sorted
              intro a b ha hb hab
              rw [keep a (hq a ha), keep b (hq b hb)]
              exact hab
            · intro a ha b hb
              rw [List.mem_singleton.1 hb, self, keep a (hq a ha)]
              obtain ⟨d, h1, _, h3⟩ := h.queued a ha
              rw [h1]
              simpa using h3
          · intro v d hvd hvq hvx x hx
            simp only at hvd hvq ⊢
            have hvw : v ≠ w := by
              intro he
              exact hvq (List.mem_append_right _ (by simp [he]))
            rw [keep v hvw] at hvd
            have := h.closed v d hvd (fun h' => hvq (List.mem_append_left _ h')) hvx x hx
            by_cases hxw : x = w
            · rw [hxw, self]; simp
            · rw [keep x hxw]; exact this
          · exact Nat.le_refl _
          · simp only
            rw [keep dst (fun he => hwd he.symm)]
            exact h.dst
          · simp only
            by_cases hs : src = w
            · rw [hs, self]; simp
            · rw [keep src hs]; exact h.src
          · intro v d hvd
            by_cases hvw : v = w
            · rw [hvw]; exact hwn
            · exact h.node v d (by rw [← keep v hvw]; exact hvd)
        rw [hv]
        have := ih _ hinv (by simp only; rw [keep cur hcw]; exact hc) hws
        refine ⟨this.1, fun s' h' => ?_⟩
        obtain ⟨a, b, c, e⟩ := this.2 s' h'
        have hseen : ∀ x, s.dist x ≠ none → s'.dist x ≠ none := by
          intro x hx
          apply c
          simp only
          by_cases hxw : x = w
          · rw [hxw, self]; simp
          · rw [keep x hxw]; exact hx
        refine ⟨a, fun x hx => ?_, hseen, ?_⟩
        · rcases List.mem_cons.1 hx with rfl | hx
          · exact c x (by simp only; rw [self]; simp)
          · exact b x hx
        · rw [e]
          have := unseen_set (d := D + 1) hd n hwn
          simp only [List.length_append, List.length_singleton]
          omega

/-- The loop over the queue. -/
theorem bfs_spec {outs ins : Nat → List Nat} {n : Nat} {E : Nat → Nat → Prop} (hG : Graph outs ins n E)
    {src dst : Nat} (fuel : Nat) : ∀ (s : Search) (D : Nat), Inv E src dst n D [] s →
    unseen n s.dist + s.queue.length < fuel →
    ∃ r, bfs outs ins dst fuel s = some r ∧
      ((r = -1 ∧ ∀ k, ¬ Walk E src dst k) ∨ ∃ k : Nat, r = k ∧ IsDist E src dst k) := by
  induction fuel with
  | zero => intro s D _ h; omega
  | succ fuel ih =>
    intro s D h hf
    cases hq : s.queue with
    | nil =>
      refine ⟨-1, by simp [bfs, hq], .inl ⟨rfl, fun k hk => ?_⟩⟩
      have all : ∀ v k, Walk E src v k → s.dist v ≠ none := by
        intro v k hw
        induction hw with
        | nil => exact h.src
        | @step u w k hu he ih =>
          obtain ⟨d, hd⟩ := Option.ne_none_iff_exists'.1 ih
          exact h.closed u d hd (by simp [hq]) (by simp) w he
      exact all dst k hk h.dst
    | cons c q =>
      obtain ⟨D', hc, hD1, hD2⟩ := h.queued c (by simp [hq])
      have hsorted := h.sorted
      rw [hq, List.pairwise_cons] at hsorted
      have hinv : Inv E src dst n D' [c] { s with queue := q } := by
        refine ⟨h.right, ?_, hsorted.2, ?_, Nat.le_trans h.mx (by omega), h.dst, h.src, h.node⟩
        · intro v hv
          obtain ⟨d, h1, h2, h3⟩ := h.queued v (by rw [hq]; exact List.mem_cons_of_mem _ hv)
          have := hsorted.1 v hv
          rw [hc, h1] at this
          simp only [Option.getD_some] at this
          exact ⟨d, h1, this, by omega⟩
        · intro v d hvd hvq hvx w hw
          refine h.closed v d hvd (fun h' => ?_) (by simp) w hw
          rw [hq] at h'
          rcases List.mem_cons.1 h' with rfl | h'
          · exact hvx (by simp)
          · exact hvq h'
      have hadj : ∀ w ∈ outs c ++ ins c, E c w ∨ E w c := by
        intro w hw
        rcases List.mem_append.1 hw with hw | hw
        · exact .inl ((hG.outs c w).1 hw)
        · exact .inr ((hG.ins c w).1 hw)
      obtain ⟨v1, v2⟩ := visit_spec hG.nodes (outs c ++ ins c) { s with queue := q } hinv hc hadj
      cases hv : visit dst D' (outs c ++ ins c) { s with queue := q } with
      | inl r =>
        obtain ⟨h1, h2⟩ := v1 r hv
        exact ⟨r, by simp [bfs, hq, hc, hv], .inr ⟨r, rfl, by rw [h1]; exact h2⟩⟩
      | inr s' =>
        obtain ⟨a, b, _, e⟩ := v2 s' hv
        have hinv' : Inv E src dst n D' [] s' := by
          refine ⟨a.right, a.queued, a.sorted, ?_, a.mx, a.dst, a.src, a.node⟩
          intro v d hvd hvq _ w hw
          by_cases hvc : v = c
          · subst hvc
            apply b
            rcases hw with hw | hw
            · exact List.mem_append_left _ ((hG.outs v w).2 hw)
            · exact List.mem_append_right _ ((hG.ins v w).2 hw)
          · exact a.closed v d hvd hvq (by simpa using hvc) w hw
        have := ih s' D' hinv' (by rw [e]; rw [hq] at hf; simp only [List.length_cons] at hf ⊢; omega)
        simpa [bfs, hq, hc, hv] using this

/-- **C121 (shortest paths).** For two different nodes the search returns the length of a
shortest path between them, whatever the directions of the edges, and -1 exactly if there is no
path. -/
theorem C121_path_partial {outs ins : Nat → List Nat} {n : Nat} {E : Nat → Nat → Prop} (hG : Graph outs ins n E)
    {src dst : Nat} (hs : src < n) (hne : src ≠ dst) :
    ∃ r, shortPath outs ins n src dst = some r ∧ (r = -1 ↔ ∀ k, ¬ Walk E src dst k) ∧
      ∀ k : Nat, r = k ↔ IsDist E src dst k := by
  have hinv : Inv E src dst n 0 [] ⟨setDist (fun _ => none) src 0, [src], 0⟩ := by
    constructor
    · intro v d h
      simp only [setDist] at h
      split at h
      next hv => cases h; rw [hv]; exact ⟨.nil, fun _ _ => Nat.zero_le _⟩
      next => cases h
    · intro v hv
      rw [List.mem_singleton.1 hv]
      exact ⟨0, by simp [setDist], by omega, by omega⟩
    · simp
    · intro v d h hq
      simp only [setDist] at h
      split at h
      next hv => exact absurd (by simp [hv]) hq
      next => cases h
    · exact Nat.zero_le _
    · simp only [setDist]
      rw [if_neg (fun h => hne h.symm)]
    · simp [setDist]
    · intro v d h
      simp only [setDist] at h
      split at h
      next hv => rw [hv]; exact hs
      next => cases h
  have hu := unseen_set (f := fun _ => none) (w := src) (d := 0) rfl n hs
  have h0 : unseen n (fun _ => none) = n := by
    unfold unseen
    rw [List.filter_eq_self.2 (by simp), List.length_range]
  obtain ⟨r, h1, h2⟩ := bfs_spec hG (n + 1) _ 0 hinv (by simp only [List.length_singleton]; omega)
  refine ⟨r, h1, ?_, ?_⟩
  · rcases h2 with ⟨h3, h4⟩ | ⟨k, h3, h4⟩
    · exact ⟨fun _ => h4, fun _ => h3⟩
    · exact ⟨fun h => by omega, fun h => absurd h4.1 (h k)⟩
  · intro k
    rcases h2 with ⟨h3, h4⟩ | ⟨k', h3, h4⟩
    · exact ⟨fun h => by omega, fun h => absurd h.1 (h4 k)⟩
    · constructor
      · intro h
        have : k = k' := by omega
        rw [this]; exact h4
      · intro h
        have a := h.2 _ h4.1
        have b := h4.2 _ h.1
        omega

/-- If the target was seen before, the search goes on. -/
theorem visit_self {dst d n : Nat} (ws : List Nat) : ∀ s : Search, s.dist dst ≠ none → (∀ w ∈ ws, w < n) →
    ∃ s', visit dst d ws s = .inr s' ∧ s'.dist dst ≠ none ∧
      unseen n s'.dist + s'.queue.length = unseen n s.dist + s.queue.length := by
  induction ws with
  | nil => intro s h _; exact ⟨s, rfl, h, rfl⟩
  | cons w ws ih =>
    intro s h hw
    have hws := fun a ha => hw a (List.mem_cons_of_mem _ ha)
    cases hd : s.dist w with
    | some e =>
      have hv : visit dst d (w :: ws) s = visit dst d ws s := by simp [visit, hd]
      rw [hv]
      exact ih s h hws
    | none =>
      have hwd : w ≠ dst := fun he => h (he ▸ hd)
      have hv : visit dst d (w :: ws) s = visit dst d ws ⟨setDist s.dist w (d + 1), s.queue ++ [w], max s.mx (d + 1)⟩ := by
        simp [visit, hd, hwd]
      rw [hv]
      obtain ⟨s', h1, h2, h3⟩ := ih ⟨setDist s.dist w (d + 1), s.queue ++ [w], max s.mx (d + 1)⟩
        (by simp only [setDist]; rw [if_neg (fun he => hwd he.symm)]; exact h) hws
      refine ⟨s', h1, h2, ?_⟩
      rw [h3]
      have := unseen_set (d := d + 1) hd n (hw w List.mem_cons_self)
      simp only [List.length_append, List.length_singleton]
      omega

theorem bfs_self {outs ins : Nat → List Nat} {n : Nat} {E : Nat → Nat → Prop} (hG : Graph outs ins n E)
    {dst : Nat} (fuel : Nat) : ∀ s : Search, s.dist dst ≠ none → unseen n s.dist + s.queue.length < fuel →
    bfs outs ins dst fuel s = some (-1) := by
  induction fuel with
  | zero => intro s _ h; omega
  | succ fuel ih =>
    intro s h hf
    cases hq : s.queue with
    | nil => simp [bfs, hq]
    | cons c q =>
      have hadj : ∀ w ∈ outs c ++ ins c, w < n := by
        intro w hw
        rcases List.mem_append.1 hw with hw | hw
        · exact (hG.nodes _ _ ((hG.outs c w).1 hw)).2
        · exact (hG.nodes _ _ ((hG.ins c w).1 hw)).1
      obtain ⟨s', h1, h2, h3⟩ := visit_self (d := (s.dist c).getD 0) (outs c ++ ins c) { s with queue := q } h hadj
      have := ih s' h2 (by rw [h3]; rw [hq] at hf; simp only [List.length_cons] at hf ⊢; omega)
      simpa [bfs, hq, h1] using this

/-- **C121, violated.** The distance of a node to itself is 0, but -1 is returned, as if there was
no path. -/
theorem C121_self_violated {outs ins : Nat → List Nat} {n : Nat} {E : Nat → Nat → Prop} (hG : Graph outs ins n E)
    {src : Nat} (hs : src < n) : IsDist E src src 0 ∧ shortPath outs ins n src src = some (-1) := by
  refine ⟨⟨.nil, fun _ _ => Nat.zero_le _⟩, ?_⟩
  have hu := unseen_set (f := fun _ => none) (w := src) (d := 0) rfl n hs
  have h0 : unseen n (fun _ => none) = n := by
    unfold unseen
    rw [List.filter_eq_self.2 (by simp), List.length_range]
  exact bfs_self hG (n + 1) _ (by simp [setDist]) (by simp only [List.length_singleton]; omega)

/-- **C121 (several pairs).** For a list of pairs of different nodes the answer at each position
is the distance of the pair at this position, and -1 if there is no path. -/
theorem C121_pairs_partial {outs ins : Nat → List Nat} {n : Nat} {E : Nat → Nat → Prop} (hG : Graph outs ins n E)
    (pairs : List (Nat × Nat)) (hp : ∀ p ∈ pairs, p.1 < n ∧ p.1 ≠ p.2) :
    (shortPaths outs ins n pairs).length = pairs.length ∧
    ∀ (i src dst : Nat), pairs[i]? = some (src, dst) → ∃ r : Int, (shortPaths outs ins n pairs)[i]? = some (some r) ∧
      (r = -1 ↔ ∀ k, ¬ Walk E src dst k) ∧ ∀ k : Nat, r = k ↔ IsDist E src dst k := by
  unfold shortPaths
  refine ⟨by simp, fun i src dst h => ?_⟩
  have hm := hp _ (List.mem_of_getElem? h)
  obtain ⟨r, h1, h2⟩ := C121_path_partial hG (src := src) (dst := dst) hm.1 hm.2
  exact ⟨r, by rw [List.getElem?_map, h]; simp [h1], h2⟩

/-! ## A concrete case -/

/-- The edges 0 → 1, 2 → 1, 2 → 3 and 3 → 0, and the node 4 without edges. -/
def exE (v w : Nat) : Prop := (v, w) ∈ [(0, 1), (2, 1), (2, 3), (3, 0)]

def exOuts (v : Nat) : List Nat := ([(0, 1), (2, 1), (2, 3), (3, 0)].filter fun e => e.1 == v).map (·.2)
def exIns (v : Nat) : List Nat := ([(0, 1), (2, 1), (2, 3), (3, 0)].filter fun e => e.2 == v).map (·.1)

theorem exGraph : Graph exOuts exIns 5 exE := by
  constructor
  · intro v w
    simp only [exOuts, exE, List.mem_map, List.mem_filter]
    constructor
    · rintro ⟨e, ⟨h1, h2⟩, rfl⟩
      rw [← (beq_iff_eq.1 h2)]
      exact h1
    · intro h
      exact ⟨(v, w), ⟨h, by simp⟩, rfl⟩
  · intro v w
    simp only [exIns, exE, List.mem_map, List.mem_filter]
    constructor
    · rintro ⟨e, ⟨h1, h2⟩, rfl⟩
      rw [← (beq_iff_eq.1 h2)]
      exact h1
    · intro h
      exact ⟨(w, v), ⟨h, by simp⟩, rfl⟩
  · intro v w h
    simp [exE] at h
    omega

/-- From 0 to 2 there are two edges, over 1 or 3. -/
example : IsDist exE 0 2 2 := by
  obtain ⟨r, h1, _, h3⟩ := C121_path_partial exGraph (src := 0) (dst := 2) (by omega) (by omega)
  have : shortPath exOuts exIns 5 0 2 = some 2 := by decide
  rw [this] at h1
  cases h1
  exact (h3 2).1 rfl

/-- There is no path from 0 to 4. -/
example : ∀ k, ¬ Walk exE 0 4 k := by
  obtain ⟨r, h1, h2, _⟩ := C121_path_partial exGraph (src := 0) (dst := 4) (by omega) (by omega)
  have : shortPath exOuts exIns 5 0 4 = some (-1) := by decide
  rw [this] at h1
  cases h1
  exact h2.1 rfl

example : shortPath exOuts exIns 5 3 3 = some (-1) := (C121_self_violated exGraph (by omega)).2

example : ∃ r : Int, (shortPaths exOuts exIns 5 [(0, 2), (1, 0), (4, 1)])[1]? = some (some r) ∧ ∀ k : Nat, r = k ↔ IsDist exE 1 0 k := by
  obtain ⟨r, h1, _, h2⟩ := (C121_pairs_partial exGraph [(0, 2), (1, 0), (4, 1)] (by decide)).2 1 1 0 rfl
  exact ⟨r, h1, h2⟩

end Trident.Snap
