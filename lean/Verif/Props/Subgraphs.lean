import Verif.Ml.Subgraphs
/-!
# C122: subgraphs with averaged embeddings
-/
namespace Trident.Subgraphs

/-- The last terms of the rows that begin with `o` and `p`. -/
def members (rows : List (Nat × Nat × Nat)) (o p : Nat) : List Nat :=
  (rows.filter fun r => decide (r.1 = o ∧ r.2.1 = p)).map (·.2.2)

/-- The sum of the embeddings of some nodes. -/
def total {K : Type} (N : Num K) (dim : Nat) (emb : Nat → List K) (vs : List Nat) : List K :=
  vs.foldl (fun acc s => List.zipWith N.add acc (emb s)) (List.replicate dim N.zero)

/-- The average of the embeddings of some nodes. -/
def average {K : Type} (N : Num K) (dim : Nat) (emb : Nat → List K) (vs : List Nat) : List K :=
  (total N dim emb vs).map fun x => N.div x vs.length

/-- The order of the rows of a scan, in the first two terms. -/
def Before (a b : Nat × Nat × Nat) : Prop := a.1 < b.1 ∨ a.1 = b.1 ∧ a.2.1 ≤ b.2.1

theorem members_snoc (pre : List (Nat × Nat × Nat)) (r : Nat × Nat × Nat) (o p : Nat) :
    members (pre ++ [r]) o p = if r.1 = o ∧ r.2.1 = p then members pre o p ++ [r.2.2] else members pre o p := by
  unfold members
  rw [List.filter_append, List.map_append]
  split <;> rename_i h <;> simp [h]

theorem members_nil_of {pre : List (Nat × Nat × Nat)} {o p : Nat} (h : ∀ r ∈ pre, ¬ (r.1 = o ∧ r.2.1 = p)) :
    members pre o p = [] := by
  unfold members
  rw [List.map_eq_nil_iff, List.filter_eq_nil_iff]
  intro r hr
  simpa using h r hr

theorem total_snoc {K : Type} (N : Num K) (dim : Nat) (emb : Nat → List K) (vs : List Nat) (s : Nat) :
    total N dim emb (vs ++ [s]) = List.zipWith N.add (total N dim emb vs) (emb s) := by
  unfold total
  rw [List.foldl_append]; rfl

/-- What is new after some rows. -/
structure Made {K : Type} (N : Num K) (dim mincard : Nat) (sp : Bool) (emb : Nat → List K)
    (pre : List (Nat × Nat × Nat)) (P : Nat → Nat → Prop) (g g' : Subs K) (new : List Meta) : Prop where
  metas : g'.metas = g.metas ++ new
  params : g'.params = g.params ++ new.flatMap fun m => average N dim emb (members pre m.ent m.rel)
  sound : ∀ m ∈ new, m.sp = sp ∧ m.size = (members pre m.ent m.rel).length ∧ mincard < m.size ∧ P m.ent m.rel
  complete : ∀ o p, P o p → mincard < (members pre o p).length → ∃ m ∈ new, m.ent = o ∧ m.rel = p
  ids : ∀ (i : Nat) m, new[i]? = some m → m.id = g.metas.length + i
  once : new.Pairwise fun a b => ¬ (a.ent = b.ent ∧ a.rel = b.rel)

theorem flush_made {K : Type} {N : Num K} {dim mincard : Nat} {sp : Bool} {emb : Nat → List K}
    {pre : List (Nat × Nat × Nat)} {g g' : Subs K} {new : List Meta} {c : Cur K}
    (h : Made N dim mincard sp emb pre (fun o p => ¬ (o = c.prevo ∧ p = c.prevp)) g g' new)
    (hc : c.count = (members pre c.prevo c.prevp).length)
    (hs : c.sum = total N dim emb (members pre c.prevo c.prevp)) :
    ∃ new, Made N dim mincard sp emb pre (fun _ _ => True) g (flush N mincard sp c g') new := by
  unfold flush
  by_cases hm : c.count > mincard
  · rw [if_pos hm]
    refine ⟨new ++ [⟨g'.metas.length, sp, c.prevo, c.prevp, c.count⟩], ?_, ?_, ?_, ?_, ?_, ?_⟩
    · simp [addSubgraph, h.metas]
    · simp only [h.params, List.flatMap_append, List.flatMap_cons, List.flatMap_nil, List.append_nil, List.append_assoc]
      rw [average, ← hs, ← hc]
    · intro m hmem
      rcases List.mem_append.1 hmem with h1 | h1
      · have := h.sound m h1
        exact ⟨this.1, this.2.1, this.2.2.1, trivial⟩
      · rw [List.mem_singleton] at h1
        subst h1
        exact ⟨rfl, hc, hm, trivial⟩
    · intro o p _ hl
      by_cases he : o = c.prevo ∧ p = c.prevp
      · exact ⟨_, List.mem_append.2 (.inr (List.mem_singleton.2 rfl)), he.1.symm, he.2.symm⟩
      · obtain ⟨m, h1, h2⟩ := h.complete o p he hl
        exact ⟨m, List.mem_append.2 (.inl h1), h2⟩
    · intro i m hi
      rw [List.getElem?_append] at hi
      split at hi
      · exact h.ids i m hi
      · rename_i hlt
        rw [List.getElem?_singleton] at hi
        split at hi
        · cases hi
          simp only [h.metas, List.length_append]
          omega
        · cases hi
    · rw [List.pairwise_append]
      refine ⟨h.once, List.pairwise_singleton _ _, ?_⟩
      intro a ha b hb
      rw [List.mem_singleton] at hb
      subst hb
      exact (h.sound a ha).2.2.2
  · rw [if_neg hm]
    refine ⟨new, h.metas, h.params, ?_, ?_, h.ids, h.once⟩
    · intro m h1
      have := h.sound m h1
      exact ⟨this.1, this.2.1, this.2.2.1, trivial⟩
    · intro o p _ hl
      by_cases he : o = c.prevo ∧ p = c.prevp
      · rw [he.1, he.2] at hl; omega
      · exact h.complete o p he hl

/-- One more row, whose first terms are not those of the groups that were made. -/
theorem Made.snoc {K : Type} {N : Num K} {dim mincard : Nat} {sp : Bool} {emb : Nat → List K}
    {pre : List (Nat × Nat × Nat)} {P Q : Nat → Nat → Prop} {g g' : Subs K} {new : List Meta} {r : Nat × Nat × Nat}
    (h : Made N dim mincard sp emb pre P g g' new)
    (hn : ∀ m ∈ new, ¬ (r.1 = m.ent ∧ r.2.1 = m.rel)) (hQ : ∀ o p, Q o p → P o p ∧ ¬ (r.1 = o ∧ r.2.1 = p))
    (hP : ∀ m ∈ new, Q m.ent m.rel) : Made N dim mincard sp emb (pre ++ [r]) Q g g' new := by
  have e : ∀ m ∈ new, members (pre ++ [r]) m.ent m.rel = members pre m.ent m.rel := by
    intro m hm
    rw [members_snoc, if_neg (hn m hm)]
  refine ⟨h.metas, ?_, ?_, ?_, h.ids, h.once⟩
  · rw [h.params]
    congr 1
    have : ∀ l : List Meta, (∀ m ∈ l, m ∈ new) → (l.flatMap fun m => average N dim emb (members pre m.ent m.rel)) =
        l.flatMap fun m => average N dim emb (members (pre ++ [r]) m.ent m.rel) := by
      intro l hl
      induction l with
      | nil => rfl
      | cons a l ih =>
        rw [List.flatMap_cons, List.flatMap_cons, e a (hl a (by simp)), ih fun m hm => hl m (by simp [hm])]
    exact this new fun _ h => h
  · intro m hm
    rw [e m hm]
    have := h.sound m hm
    exact ⟨this.1, this.2.1, this.2.2.1, hP m hm⟩
  · intro o p hq hl
    rw [members_snoc, if_neg (hQ o p hq).2] at hl
    exact h.complete o p (hQ o p hq).1 hl

theorem loop_made {K : Type} {N : Num K} {dim mincard : Nat} {sp : Bool} {emb : Nat → List K} {g : Subs K}
    (rows : List (Nat × Nat × Nat)) : ∀ (pre : List (Nat × Nat × Nat)) (c : Cur K) (g' : Subs K) (new : List Meta),
    (pre ++ rows).Pairwise Before → (∀ r ∈ pre, Before r (c.prevo, c.prevp, 0)) →
    (∀ r ∈ rows, pre ≠ [] → Before (c.prevo, c.prevp, 0) r) →
    Made N dim mincard sp emb pre (fun o p => ¬ (o = c.prevo ∧ p = c.prevp)) g g' new →
    c.count = (members pre c.prevo c.prevp).length → c.sum = total N dim emb (members pre c.prevo c.prevp) →
    ∃ new, Made N dim mincard sp emb (pre ++ rows) (fun _ _ => True) g (loop N dim mincard sp emb rows c g') new := by
  induction rows with
  | nil =>
    intro pre c g' new _ _ _ h hc hs
    rw [List.append_nil]
    exact flush_made h hc hs
  | cons r rows ih =>
    intro pre c g' new hsort hle hge h hc hs
    obtain ⟨o, p, s⟩ := r
    have hsort' : ((pre ++ [(o, p, s)]) ++ rows).Pairwise Before := by simpa using hsort
    have hafter : ∀ r ∈ rows, Before (o, p, 0) r := by
      intro r hr
      have := (List.pairwise_cons.1 (List.pairwise_append.1 hsort).2.1).1 r hr
      simpa [Before] using this
    have e : pre ++ (o, p, s) :: rows = (pre ++ [(o, p, s)]) ++ rows := by simp
    rw [e, loop]
    split
    · rename_i hne
      have hfresh : ∀ r ∈ pre, ¬ (r.1 = o ∧ r.2.1 = p) := by
        intro r hr hk
        have h1 := hle r hr
        have h2 := hge (o, p, s) (by simp) (List.ne_nil_of_mem hr)
        simp only [Before] at h1 h2
        omega
      obtain ⟨new', h'⟩ := flush_made h hc hs
      have hn : ∀ m ∈ new', ¬ (o = m.ent ∧ p = m.rel) := by
        intro m hm hk
        have := (h'.sound m hm).2
        rw [← hk.1, ← hk.2, members_nil_of hfresh] at this
        simp at this
        omega
      refine ih _ _ _ new' hsort' ?_ (fun r hr _ => hafter r hr) ?_ ?_ ?_
      · intro r hr
        rcases List.mem_append.1 hr with h1 | h1
        · have := (List.pairwise_append.1 hsort).2.2 r h1 (o, p, s) (by simp)
          simpa [Before] using this
        · rw [List.mem_singleton] at h1
          subst h1
          exact .inr ⟨rfl, Nat.le_refl _⟩
      · refine h'.snoc hn ?_ ?_
        · intro a b hab
          exact ⟨trivial, fun hk => hab ⟨hk.1.symm, hk.2.symm⟩⟩
        · intro m hm hk
          exact hn m hm ⟨hk.1.symm, hk.2.symm⟩
      · simp [members_snoc, members_nil_of hfresh]
      · simp [members_snoc, members_nil_of hfresh, total]
    · rename_i he
      have ho : o = c.prevo := by omega
      have hp : p = c.prevp := by omega
      subst ho hp
      refine ih _ _ _ new hsort' ?_ (fun r hr _ => hafter r hr) ?_ ?_ ?_
      · intro r hr
        rcases List.mem_append.1 hr with h1 | h1
        · exact hle r h1
        · rw [List.mem_singleton] at h1
          subst h1
          exact .inr ⟨rfl, Nat.le_refl _⟩
      · refine h.snoc ?_ ?_ ?_
        · intro m hm hk
          exact (h.sound m hm).2.2.2 ⟨hk.1.symm, hk.2.symm⟩
        · intro a b hab
          exact ⟨hab, fun hk => hab ⟨hk.1.symm, hk.2.symm⟩⟩
        · intro m hm
          exact (h.sound m hm).2.2.2
      · simp [members_snoc, hc]
      · simp [members_snoc, total_snoc, hs]

theorem process_made {K : Type} (N : Num K) (dim mincard : Nat) (sp : Bool) (emb : Nat → List K)
    {rows : List (Nat × Nat × Nat)} (hs : rows.Pairwise Before) (g : Subs K) :
    ∃ new, Made N dim mincard sp emb rows (fun _ _ => True) g (processItr N dim mincard sp emb rows g) new := by
  refine loop_made (g := g) rows [] _ g [] hs (by simp) (fun _ _ h => absurd rfl h) ?_ rfl rfl
  exact ⟨by simp, by simp, by simp, fun o p _ h => by simp [members] at h, by simp, by simp⟩

/-! ## The specification -/

/-- The nodes of a subgraph of the triples `T` (subject, predicate, object): the objects of the
subject `ent` and the predicate `rel` if `sp`, and else the subjects of the object `ent`. -/
def nodes (T : List (Nat × Nat × Nat)) (sp : Bool) (ent rel : Nat) : List Nat :=
  if sp then (T.filter fun t => decide (t.1 = ent ∧ t.2.1 = rel)).map (·.2.2)
  else (T.filter fun t => decide (t.2.2 = ent ∧ t.2.1 = rel)).map (·.1)

/-- `rows` are the triples sorted by object and predicate. -/
def IsOps (T rows : List (Nat × Nat × Nat)) : Prop :=
  rows.Perm (T.map fun t => (t.2.2, t.2.1, t.1)) ∧ rows.Pairwise Before

/-- `rows` are the triples sorted by subject and predicate. -/
def IsSpo (T rows : List (Nat × Nat × Nat)) : Prop := rows.Perm T ∧ rows.Pairwise Before

theorem members_ops {T rows : List (Nat × Nat × Nat)} (h : IsOps T rows) (o p : Nat) :
    (members rows o p).Perm (nodes T false o p) := by
  have := (h.1.filter fun r => decide (r.1 = o ∧ r.2.1 = p)).map (·.2.2)
  refine this.trans ?_
  rw [List.filter_map, List.map_map]
  exact List.Perm.refl _

theorem members_spo {T rows : List (Nat × Nat × Nat)} (h : IsSpo T rows) (s p : Nat) :
    (members rows s p).Perm (nodes T true s p) := by
  have := (h.1.filter fun r => decide (r.1 = s ∧ r.2.1 = p)).map (·.2.2)
  exact this

/-- The subgraphs of both scans. -/
theorem calculate_made {K : Type} (N : Num K) (dim mincard : Nat) (emb : Nat → List K)
    {T ops spo : List (Nat × Nat × Nat)} (ho : IsOps T ops) (hs : IsSpo T spo) :
    ∃ a b, Made N dim mincard false emb ops (fun _ _ => True) ⟨[], []⟩ (processItr N dim mincard false emb ops ⟨[], []⟩) a ∧
      Made N dim mincard true emb spo (fun _ _ => True) (processItr N dim mincard false emb ops ⟨[], []⟩)
        (calculate N dim mincard emb ops spo ⟨[], []⟩) b ∧
      (calculate N dim mincard emb ops spo ⟨[], []⟩).metas = a ++ b ∧
      (calculate N dim mincard emb ops spo ⟨[], []⟩).params = a.flatMap (fun m => average N dim emb (members ops m.ent m.rel)) ++
        b.flatMap (fun m => average N dim emb (members spo m.ent m.rel)) := by
  obtain ⟨a, ha⟩ := process_made N dim mincard false emb ho.2 ⟨[], []⟩
  obtain ⟨b, hb⟩ := process_made N dim mincard true emb hs.2 (processItr N dim mincard false emb ops ⟨[], []⟩)
  refine ⟨a, b, ha, hb, ?_, ?_⟩
  · rw [calculate, hb.metas, ha.metas]; rfl
  · rw [calculate, hb.params, ha.params]; rfl

/-- **C122 (subgraphs).** There is a subgraph of a kind, an entity, a predicate and a size exactly
if this is the number of its nodes and it is above the minimum. -/
theorem C122_groups {K : Type} (N : Num K) (dim mincard : Nat) (emb : Nat → List K)
    {T ops spo : List (Nat × Nat × Nat)} (ho : IsOps T ops) (hs : IsSpo T spo) (sp : Bool) (ent rel size : Nat) :
    (∃ m ∈ (calculate N dim mincard emb ops spo ⟨[], []⟩).metas, m.sp = sp ∧ m.ent = ent ∧ m.rel = rel ∧ m.size = size) ↔
      size = (nodes T sp ent rel).length ∧ mincard < size := by
  obtain ⟨a, b, ha, hb, hm, _⟩ := calculate_made N dim mincard emb ho hs
  rw [hm]
  constructor
  · rintro ⟨m, h1, rfl, rfl, rfl, rfl⟩
    rcases List.mem_append.1 h1 with h1 | h1
    · obtain ⟨e, h2, h3, _⟩ := ha.sound m h1
      rw [e, ← (members_ops ho m.ent m.rel).length_eq]
      exact ⟨h2, h3⟩
    · obtain ⟨e, h2, h3, _⟩ := hb.sound m h1
      rw [e, ← (members_spo hs m.ent m.rel).length_eq]
      exact ⟨h2, h3⟩
  · rintro ⟨rfl, h⟩
    cases sp with
    | false =>
      have e := (members_ops ho ent rel).length_eq
      obtain ⟨m, h1, rfl, rfl⟩ := ha.complete ent rel trivial (by omega)
      obtain ⟨h2, h3, _⟩ := ha.sound m h1
      exact ⟨m, List.mem_append.2 (.inl h1), h2, rfl, rfl, h3.trans e⟩
    | true =>
      have e := (members_spo hs ent rel).length_eq
      obtain ⟨m, h1, rfl, rfl⟩ := hb.complete ent rel trivial (by omega)
      obtain ⟨h2, h3, _⟩ := hb.sound m h1
      exact ⟨m, List.mem_append.2 (.inr h1), h2, rfl, rfl, h3.trans e⟩

/-- **C122 (once).** No two subgraphs have the same kind, entity and predicate, and the id of a
subgraph is its position. -/
theorem C122_once {K : Type} (N : Num K) (dim mincard : Nat) (emb : Nat → List K)
    {T ops spo : List (Nat × Nat × Nat)} (ho : IsOps T ops) (hs : IsSpo T spo) :
    ((calculate N dim mincard emb ops spo ⟨[], []⟩).metas.Pairwise fun x y => ¬ (x.sp = y.sp ∧ x.ent = y.ent ∧ x.rel = y.rel)) ∧
    ∀ (i : Nat) m, (calculate N dim mincard emb ops spo ⟨[], []⟩).metas[i]? = some m → m.id = i := by
  obtain ⟨a, b, ha, hb, hm, _⟩ := calculate_made N dim mincard emb ho hs
  rw [hm]
  constructor
  · rw [List.pairwise_append]
    refine ⟨ha.once.imp fun h k => h k.2, hb.once.imp fun h k => h k.2, ?_⟩
    intro x hx y hy k
    have h1 := (ha.sound x hx).1
    have h2 := (hb.sound y hy).1
    rw [h1, h2] at k
    exact absurd k.1 (by decide)
  · intro i m hi
    rw [List.getElem?_append] at hi
    split at hi
    · have := ha.ids i m hi
      simpa using this
    · have := hb.ids _ m hi
      rw [ha.metas] at this
      simp at this
      omega

theorem length_total {K : Type} (N : Num K) {dim : Nat} {emb : Nat → List K} (he : ∀ s, (emb s).length = dim)
    (vs : List Nat) : (total N dim emb vs).length = dim := by
  unfold total
  have : ∀ acc : List K, acc.length = dim → (vs.foldl (fun acc s => List.zipWith N.add acc (emb s)) acc).length = dim := by
    induction vs with
    | nil => exact fun _ h => h
    | cons v vs ih =>
      intro acc h
      exact ih _ (by simp [h, he])
  exact this _ (by simp)

/-- A piece of a concatenation of pieces of the same length. -/
theorem slice_flatMap {K : Type} {dim : Nat} {f : Meta → List K} (l : List Meta) (hf : ∀ m ∈ l, (f m).length = dim) (rest : List K) :
    ∀ (i : Nat) m, l[i]? = some m → ((l.flatMap f ++ rest).drop (dim * i)).take dim = f m := by
  induction l with
  | nil => intro i m h; simp at h
  | cons a l ih =>
    intro i m h
    have ha := hf a (by simp)
    rw [List.flatMap_cons, List.append_assoc]
    cases i with
    | zero =>
      simp at h
      subst h
      rw [Nat.mul_zero, List.drop_zero, ← ha, List.take_left]
    | succ i =>
      rw [Nat.mul_succ, Nat.add_comm, ← List.drop_drop]
      have : (f a ++ (l.flatMap f ++ rest)).drop dim = l.flatMap f ++ rest := by rw [← ha, List.drop_left]
      rw [this]
      exact ih (fun m hm => hf m (by simp [hm])) i m (by simpa using h)

theorem length_flatMap_same {K : Type} {dim : Nat} {f : Meta → List K} (l : List Meta) (hf : ∀ m ∈ l, (f m).length = dim) :
    (l.flatMap f).length = dim * l.length := by
  induction l with
  | nil => rfl
  | cons a l ih =>
    rw [List.flatMap_cons, List.length_append, hf a (by simp), ih fun m hm => hf m (by simp [hm]), List.length_cons, Nat.mul_succ]
    omega

/-- The averages, with the order of the rows. -/
theorem slices {K : Type} (N : Num K) {dim : Nat} (mincard : Nat) {emb : Nat → List K} (he : ∀ s, (emb s).length = dim)
    {T ops spo : List (Nat × Nat × Nat)} (ho : IsOps T ops) (hs : IsSpo T spo) :
    (∀ m ∈ (calculate N dim mincard emb ops spo ⟨[], []⟩).metas,
      ((calculate N dim mincard emb ops spo ⟨[], []⟩).params.drop (dim * m.id)).take dim =
        average N dim emb (members (if m.sp then spo else ops) m.ent m.rel)) ∧
    (calculate N dim mincard emb ops spo ⟨[], []⟩).params.length = dim * (calculate N dim mincard emb ops spo ⟨[], []⟩).metas.length := by
  obtain ⟨a, b, ha, hb, hm, hp⟩ := calculate_made N dim mincard emb ho hs
  have hl : ∀ vs, (average N dim emb vs).length = dim := fun vs => by rw [average, List.length_map, length_total N he]
  have hla := length_flatMap_same (f := fun m => average N dim emb (members ops m.ent m.rel)) a (fun _ _ => hl _)
  have hlb := length_flatMap_same (f := fun m => average N dim emb (members spo m.ent m.rel)) b (fun _ _ => hl _)
  constructor
  · intro m hmem
    rw [hp]
    rw [hm] at hmem
    rcases List.mem_append.1 hmem with h1 | h1
    · obtain ⟨i, hi⟩ := List.mem_iff_getElem?.1 h1
      have hid := ha.ids i m hi
      simp at hid
      rw [hid, (ha.sound m h1).1]
      exact slice_flatMap a (f := fun m => average N dim emb (members ops m.ent m.rel)) (fun _ _ => hl _) _ i m hi
    · obtain ⟨i, hi⟩ := List.mem_iff_getElem?.1 h1
      have hid := hb.ids i m hi
      rw [ha.metas] at hid
      simp at hid
      rw [hid, (hb.sound m h1).1, Nat.mul_add, ← List.drop_drop, ← hla, List.drop_left]
      have := slice_flatMap b (f := fun m => average N dim emb (members spo m.ent m.rel)) (fun _ _ => hl _) [] i m hi
      rwa [List.append_nil] at this
  · rw [hp, hm, List.length_append, hla, hlb, List.length_append, Nat.mul_add]

theorem members_both {T ops spo : List (Nat × Nat × Nat)} (ho : IsOps T ops) (hs : IsSpo T spo) (sp : Bool) (e r : Nat) :
    (members (if sp then spo else ops) e r).Perm (nodes T sp e r) := by
  cases sp
  · exact members_ops ho e r
  · exact members_spo hs e r

/-- **C122 (averages).** The `dim` numbers from `dim` times the id of a subgraph on are the average
of the embeddings of its nodes, added in some order, and there are no other numbers. -/
theorem C122_average {K : Type} (N : Num K) {dim : Nat} (mincard : Nat) {emb : Nat → List K} (he : ∀ s, (emb s).length = dim)
    {T ops spo : List (Nat × Nat × Nat)} (ho : IsOps T ops) (hs : IsSpo T spo) :
    (∀ m ∈ (calculate N dim mincard emb ops spo ⟨[], []⟩).metas, ∃ vs, vs.Perm (nodes T m.sp m.ent m.rel) ∧
      ((calculate N dim mincard emb ops spo ⟨[], []⟩).params.drop (dim * m.id)).take dim = average N dim emb vs) ∧
    (calculate N dim mincard emb ops spo ⟨[], []⟩).params.length = dim * (calculate N dim mincard emb ops spo ⟨[], []⟩).metas.length :=
  ⟨fun m hm => ⟨_, members_both ho hs m.sp m.ent m.rel, (slices N mincard he ho hs).1 m hm⟩, (slices N mincard he ho hs).2⟩

/-! ## Variances -/

/-- The variance of the embeddings of some nodes: in every place the sum of the squares of the
differences from the average, divided by the number of nodes less one if there are two or more. -/
def variance {K : Type} (N : Num K) (sq : K → K → K) (dim : Nat) (emb : Nat → List K) (vs : List Nat) : List K :=
  (List.range dim).map fun i =>
    let squares := vs.map fun s => sq ((emb s).getD i N.zero) ((average N dim emb vs).getD i N.zero)
    let sum := squares.foldl N.add N.zero
    if vs.length ≤ 1 then sum else N.div sum (vs.length - 1)

theorem groupVar_eq {K : Type} (N : Num K) (sq : K → K → K) {dim : Nat} {emb : Nat → List K} (he : ∀ s, (emb s).length = dim)
    (vs : List Nat) : groupVar N sq dim emb (total N dim emb vs) vs.length vs = variance N sq dim emb vs := by
  unfold groupVar variance
  apply List.map_congr_left
  intro i hi
  have hlt : i < (total N dim emb vs).length := by rw [length_total N he]; exact List.mem_range.1 hi
  have e : (average N dim emb vs).getD i N.zero = N.div ((total N dim emb vs).getD i N.zero) vs.length := by
    simp [average, List.getD_eq_getElem?_getD, List.getElem?_map, List.getElem?_eq_getElem hlt]
  simp only [e, List.foldl_map]

/-- Numbers that are lists of nodes: the sum is the list of the nodes of a group. -/
def NL : Num (List Nat) := ⟨[], (· ++ ·), fun x _ => x⟩

theorem total_NL (vs : List Nat) : total NL 1 (fun s => [[s]]) vs = [vs] := by
  have : ∀ acc : List Nat, vs.foldl (fun acc s => List.zipWith NL.add acc [[s]]) [acc] = [acc ++ vs] := by
    induction vs with
    | nil => intro acc; simp
    | cons v vs ih =>
      intro acc
      have := ih (acc ++ [v])
      simp only [List.foldl_cons, List.zipWith_cons_cons, List.zipWith_nil_left, NL] at this ⊢
      rw [this]; simp
  exact this []

theorem average_NL (vs : List Nat) : average NL 1 (fun s => [[s]]) vs = [vs] := by
  rw [average, total_NL]; rfl

/-- The loop is the loop with averages, and the variances are those of the nodes of the groups. -/
theorem loopVar_eq {K : Type} (N : Num K) (sq : K → K → K) {dim : Nat} (mincard : Nat) (sp : Bool) {emb : Nat → List K}
    (he : ∀ s, (emb s).length = dim) (rows : List (Nat × Nat × Nat)) :
    ∀ (c : Cur K) (vs : List Nat) (g : Subs K) (done : List (List Nat)), c.sum = total N dim emb vs → c.count = vs.length →
    loopVar N sq dim mincard sp emb rows c vs g (done.flatMap (variance N sq dim emb)) =
      (loop N dim mincard sp emb rows c g,
        (loop NL 1 mincard sp (fun s => [[s]]) rows ⟨[vs], c.count, c.prevo, c.prevp⟩ ⟨g.metas, done⟩).params.flatMap
          (variance N sq dim emb)) ∧
    (loop NL 1 mincard sp (fun s => [[s]]) rows ⟨[vs], c.count, c.prevo, c.prevp⟩ ⟨g.metas, done⟩).metas =
      (loop N dim mincard sp emb rows c g).metas := by
  have fl : ∀ (c : Cur K) (vs : List Nat) (g : Subs K) (done : List (List Nat)), c.sum = total N dim emb vs → c.count = vs.length →
      ∃ done', flushVar N sq dim mincard emb sp c vs g (done.flatMap (variance N sq dim emb)) =
        (flush N mincard sp c g, done'.flatMap (variance N sq dim emb)) ∧
        flush NL mincard sp ⟨[vs], c.count, c.prevo, c.prevp⟩ ⟨g.metas, done⟩ = ⟨(flush N mincard sp c g).metas, done'⟩ := by
    intro c vs g done hs hc
    unfold flushVar flush
    by_cases h : c.count > mincard
    · refine ⟨done ++ [vs], ?_, ?_⟩
      · rw [if_pos h, if_pos h, List.flatMap_append, hs, hc, groupVar_eq N sq he vs]
        simp
      · simp only [if_pos h]; rfl
    · exact ⟨done, by rw [if_neg h, if_neg h], by simp only [if_neg h]⟩
  induction rows with
  | nil =>
    intro c vs g done hs hc
    obtain ⟨done', h1, h2⟩ := fl c vs g done hs hc
    simp only [loopVar, loop, h1, h2, and_self]
  | cons r rows ih =>
    intro c vs g done hs hc
    obtain ⟨o, p, s⟩ := r
    by_cases h : o ≠ c.prevo ∨ p ≠ c.prevp
    · obtain ⟨done', h1, h2⟩ := fl c vs g done hs hc
      simp only [loopVar, loop, if_pos h, h1, h2]
      exact ih ⟨List.zipWith N.add (List.replicate dim N.zero) (emb s), 1, o, p⟩ [s] _ done' rfl rfl
    · simp only [loopVar, loop, if_neg h]
      exact ih { c with sum := List.zipWith N.add c.sum (emb s), count := c.count + 1 } (vs ++ [s]) g done
        (by rw [total_snoc, hs]) (by simp [hc])

theorem calculateVar_eq {K : Type} (N : Num K) (sq : K → K → K) {dim : Nat} (mincard : Nat) {emb : Nat → List K}
    (he : ∀ s, (emb s).length = dim) (ops spo : List (Nat × Nat × Nat)) :
    calculateVar N sq dim mincard emb ops spo ⟨[], []⟩ [] = (calculate N dim mincard emb ops spo ⟨[], []⟩,
      (calculate NL 1 mincard (fun s => [[s]]) ops spo ⟨[], []⟩).params.flatMap (variance N sq dim emb)) ∧
    (calculate NL 1 mincard (fun s => [[s]]) ops spo ⟨[], []⟩).metas = (calculate N dim mincard emb ops spo ⟨[], []⟩).metas := by
  obtain ⟨h1, h2⟩ := loopVar_eq N sq mincard false he ops ⟨List.replicate dim N.zero, 0, 2 ^ 64 - 1, 2 ^ 64 - 1⟩ [] ⟨[], []⟩ [] rfl rfl
  obtain ⟨h3, h4⟩ := loopVar_eq N sq mincard true he spo ⟨List.replicate dim N.zero, 0, 2 ^ 64 - 1, 2 ^ 64 - 1⟩ []
    (processItr N dim mincard false emb ops ⟨[], []⟩) (processItr NL 1 mincard false (fun s => [[s]]) ops ⟨[], []⟩).params rfl rfl
  have e : (⟨(processItr N dim mincard false emb ops ⟨[], []⟩).metas, (processItr NL 1 mincard false (fun s => [[s]]) ops ⟨[], []⟩).params⟩ : Subs (List Nat)) =
      processItr NL 1 mincard false (fun s => [[s]]) ops ⟨[], []⟩ := by
    have : (processItr NL 1 mincard false (fun s => [[s]]) ops ⟨[], []⟩).metas = (processItr N dim mincard false emb ops ⟨[], []⟩).metas := h2
    rw [← this]
  rw [e] at h3 h4
  refine ⟨?_, h4⟩
  unfold calculateVar processVar
  have h1' : loopVar N sq dim mincard false emb ops ⟨List.replicate dim N.zero, 0, 2 ^ 64 - 1, 2 ^ 64 - 1⟩ [] ⟨[], []⟩ [] =
    (processItr N dim mincard false emb ops ⟨[], []⟩,
      (processItr NL 1 mincard false (fun s => [[s]]) ops ⟨[], []⟩).params.flatMap (variance N sq dim emb)) := h1
  rw [h1']
  exact h3

theorem slice_words {A K : Type} {dim : Nat} {f : A → List K} (l : List A) (hf : ∀ a, (f a).length = dim) :
    ∀ (i : Nat) a, l[i]? = some a → ((l.flatMap f).drop (dim * i)).take dim = f a := by
  induction l with
  | nil => intro i m h; simp at h
  | cons b l ih =>
    intro i a h
    rw [List.flatMap_cons]
    cases i with
    | zero =>
      simp at h
      subst h
      rw [Nat.mul_zero, List.drop_zero, ← hf b, List.take_left]
    | succ i =>
      rw [Nat.mul_succ, Nat.add_comm, ← List.drop_drop, List.drop_left' (hf b)]
      exact ih i a (by simpa using h)

/-- **C122 (variances).** With variances the subgraphs and the averages are the same, and the `dim`
variances from `dim` times the id of a subgraph on are those of the embeddings of its nodes. -/
theorem C122_variance {K : Type} (N : Num K) (sq : K → K → K) {dim : Nat} (mincard : Nat) {emb : Nat → List K}
    (he : ∀ s, (emb s).length = dim) {T ops spo : List (Nat × Nat × Nat)} (ho : IsOps T ops) (hs : IsSpo T spo) :
    (calculateVar N sq dim mincard emb ops spo ⟨[], []⟩ []).1 = calculate N dim mincard emb ops spo ⟨[], []⟩ ∧
    ∀ m ∈ (calculateVar N sq dim mincard emb ops spo ⟨[], []⟩ []).1.metas, ∃ vs, vs.Perm (nodes T m.sp m.ent m.rel) ∧
      ((calculateVar N sq dim mincard emb ops spo ⟨[], []⟩ []).1.params.drop (dim * m.id)).take dim = average N dim emb vs ∧
      ((calculateVar N sq dim mincard emb ops spo ⟨[], []⟩ []).2.drop (dim * m.id)).take dim = variance N sq dim emb vs := by
  obtain ⟨h1, h2⟩ := calculateVar_eq N sq mincard he ops spo
  rw [h1]
  refine ⟨rfl, fun m hm => ⟨_, members_both ho hs m.sp m.ent m.rel, (slices N mincard he ho hs).1 m hm, ?_⟩⟩
  have := (slices NL mincard (emb := fun s => [[s]]) (dim := 1) (fun _ => rfl) ho hs).1 m (by rw [h2]; exact hm)
  rw [average_NL, Nat.one_mul] at this
  refine slice_words _ (fun a => by simp [variance]) m.id _ ?_
  have h3 := congrArg (·[0]?) this
  simpa [List.getElem?_take, List.getElem?_drop] using h3

/-! ## Nodes with more than 32 bits -/

theorem getEmb_small {K : Type} {tab : Nat → List K} {s : Nat} (h : s < 2 ^ 32) : getEmb tab s = tab s := by
  rw [getEmb, Nat.mod_eq_of_lt h]

theorem total_congr {K : Type} (N : Num K) (dim : Nat) {f g : Nat → List K} (vs : List Nat) (h : ∀ s ∈ vs, f s = g s) :
    total N dim f vs = total N dim g vs := by
  unfold total
  have : ∀ acc : List K, vs.foldl (fun acc s => List.zipWith N.add acc (f s)) acc = vs.foldl (fun acc s => List.zipWith N.add acc (g s)) acc := by
    induction vs with
    | nil => intro _; rfl
    | cons v vs ih =>
      intro acc
      rw [List.foldl_cons, List.foldl_cons, h v (by simp), ih fun s hs => h s (by simp [hs])]
  exact this _

theorem variance_congr {K : Type} (N : Num K) (sq : K → K → K) (dim : Nat) {f g : Nat → List K} (vs : List Nat)
    (h : ∀ s ∈ vs, f s = g s) : variance N sq dim f vs = variance N sq dim g vs := by
  unfold variance
  apply List.map_congr_left
  intro i _
  have e : average N dim f vs = average N dim g vs := by rw [average, average, total_congr N dim vs h]
  have : (vs.map fun s => sq ((f s).getD i N.zero) ((average N dim f vs).getD i N.zero)) =
      vs.map fun s => sq ((g s).getD i N.zero) ((average N dim g vs).getD i N.zero) :=
    List.map_congr_left fun s hs => by rw [h s hs, e]
  simp only [this]

/-- **C122 (rows).** With the rows of the embeddings `tab` the averages and the variances of a
subgraph are those of the rows of its nodes, if these are below 2^32. -/
theorem C122_rows_partial {K : Type} (N : Num K) (sq : K → K → K) {dim : Nat} (mincard : Nat) {tab : Nat → List K}
    (he : ∀ s, (tab s).length = dim) {T ops spo : List (Nat × Nat × Nat)} (ho : IsOps T ops) (hs : IsSpo T spo) :
    ∀ m ∈ (calculateVar N sq dim mincard (getEmb tab) ops spo ⟨[], []⟩ []).1.metas,
      (∀ s ∈ nodes T m.sp m.ent m.rel, s < 2 ^ 32) → ∃ vs, vs.Perm (nodes T m.sp m.ent m.rel) ∧
      ((calculateVar N sq dim mincard (getEmb tab) ops spo ⟨[], []⟩ []).1.params.drop (dim * m.id)).take dim = average N dim tab vs ∧
      ((calculateVar N sq dim mincard (getEmb tab) ops spo ⟨[], []⟩ []).2.drop (dim * m.id)).take dim = variance N sq dim tab vs := by
  intro m hm hn
  obtain ⟨vs, h1, h2, h3⟩ := (C122_variance N sq mincard (emb := getEmb tab) (fun s => he _) ho hs).2 m hm
  have e : ∀ s ∈ vs, getEmb tab s = tab s := fun s hs' => getEmb_small (hn s (h1.mem_iff.1 hs'))
  refine ⟨vs, h1, ?_, ?_⟩
  · rw [h2, average, average, total_congr N dim vs e]
  · rw [h3, variance_congr N sq dim vs e]

/-- **C122 (rows), violated.** From 2^32 on the embedding of another node is taken: for a store of
one triple the average is that of the embedding of the object without its high bits. -/
theorem C122_rows_violated {K : Type} (N : Num K) {dim : Nat} {tab : Nat → List K} (he : ∀ s, (tab s).length = dim)
    (k : Nat) (hk : k < 2 ^ 32) :
    ((calculate N dim 0 (getEmb tab) [(2 ^ 32 + k, 2, 1)] [(1, 2, 2 ^ 32 + k)] ⟨[], []⟩).params.drop dim) = average N dim tab [k] ∧
    nodes [(1, 2, 2 ^ 32 + k)] true 1 2 = [2 ^ 32 + k] := by
  constructor
  · have e : getEmb tab (2 ^ 32 + k) = tab k := by
      rw [getEmb, Nat.add_mod_left, Nat.mod_eq_of_lt hk]
    have hl : (total N dim (getEmb tab) [1]).length = dim := length_total N (fun s => he _) _
    simp [calculate, processItr, loop, flush, average, total, e] at hl ⊢
    rw [List.drop_left' (by simp [getEmb, he])]
  · simp [nodes]

/-! ## A concrete case -/

/-- Two subjects of the object 9, and one of them has two objects. -/
def exT : List (Nat × Nat × Nat) := [(1, 5, 9), (2, 5, 9), (2, 5, 8)]
def exOps : List (Nat × Nat × Nat) := [(8, 5, 2), (9, 5, 1), (9, 5, 2)]
def exSpo : List (Nat × Nat × Nat) := [(1, 5, 9), (2, 5, 8), (2, 5, 9)]
def exN : Num Nat := ⟨0, (· + ·), (· / ·)⟩

theorem ex_ops : IsOps exT exOps := ⟨by decide, by unfold exOps; simp [Before]⟩
theorem ex_spo : IsSpo exT exSpo := ⟨by decide, by unfold exSpo; simp [Before]⟩

example : ∃ m ∈ (calculate exN 2 1 (fun s => [s, 10 * s]) exOps exSpo ⟨[], []⟩).metas,
    m.sp = true ∧ m.ent = 2 ∧ m.rel = 5 ∧ m.size = 2 :=
  (C122_groups exN 2 1 _ ex_ops ex_spo true 2 5 2).2 (by decide)

example : (calculate exN 2 1 (fun s => [s, 10 * s]) exOps exSpo ⟨[], []⟩).params = [1, 15, 8, 85] := by decide

example : (calculate exN 2 1 (fun s => [s, 10 * s]) exOps exSpo ⟨[], []⟩).metas = [⟨0, false, 9, 5, 2⟩, ⟨1, true, 2, 5, 2⟩] := by decide

example := (C122_once exN 2 1 (fun s => [s, 10 * s]) ex_ops ex_spo).1
example := (C122_average exN (dim := 2) 1 (emb := fun s => [s, 10 * s]) (fun _ => rfl) ex_ops ex_spo).1
example := (C122_variance exN (fun a b => (a - b + (b - a)) ^ 2) (dim := 2) 1 (emb := fun s => [s, 10 * s]) (fun _ => rfl) ex_ops ex_spo).2

example : (calculateVar exN (fun a b => (a - b + (b - a)) ^ 2) 2 1 (fun s => [s, 10 * s]) exOps exSpo ⟨[], []⟩ []).2 = [1, 50, 1, 50] := by decide

example : ∃ m ∈ (calculateVar exN (fun a b => (a - b + (b - a)) ^ 2) 2 1 (getEmb fun s => [s, 10 * s]) exOps exSpo ⟨[], []⟩ []).1.metas,
    ∀ s ∈ nodes exT m.sp m.ent m.rel, s < 2 ^ 32 := ⟨⟨0, false, 9, 5, 2⟩, by decide, by decide⟩

example := C122_rows_partial exN (fun a b => (a - b + (b - a)) ^ 2) (dim := 2) 1 (tab := fun s => [s, 10 * s]) (fun _ => rfl) ex_ops ex_spo
example := (C122_rows_violated exN (dim := 2) (tab := fun s => [s, 10 * s]) (fun _ => rfl) 3 (by decide)).1

end Trident.Subgraphs
