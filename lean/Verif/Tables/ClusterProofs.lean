import Verif.Tables.Cluster
import Verif.Tables.Groups
namespace Trident.Cluster

variable {w1 w2 wc : Width} {m : Mem}

/-! ## What the inserter writes -/

/-- Bytes of one group. -/
def encGrp (w1 w2 wc : Width) (g : Nat × List Nat) : List UInt8 :=
  w1.enc g.1 ++ wc.enc g.2.length ++ g.2.flatMap w2.enc

theorem foldl_append_out (l : List (Nat × Nat)) (k : Nat) (vs : List Nat) (hvs : vs ≠ [])
    (out : List UInt8) :
    (writeGroup w1 w2 wc (l.foldl (append w1 w2 wc) { prev := k, vs := vs, out := out })).out =
      out ++ (groups (vs.map (fun v => (k, v)) ++ l)).flatMap (encGrp w1 w2 wc) := by
  induction l generalizing k vs out with
  | nil =>
    rw [List.foldl_nil, List.append_nil, groups_block k vs hvs]
    simp [writeGroup, hvs, encGrp]
  | cons t l ih =>
    rw [List.foldl_cons]
    by_cases ht : t.1 = k
    · subst ht
      have : append w1 w2 wc { prev := (t.1 : Int), vs := vs, out := out } t =
          { prev := (t.1 : Int), vs := vs ++ [t.2], out := out } := by simp [append]
      rw [this, ih t.1 (vs ++ [t.2]) (by simp) out]
      simp
    · have : append w1 w2 wc { prev := (k : Int), vs := vs, out := out } t =
          { prev := (t.1 : Int), vs := [t.2], out := out ++ encGrp w1 w2 wc (k, vs) } := by
        simp [append, writeGroup, hvs, encGrp, show ((t.1 : Int) = k) = False by simp; omega]
      rw [this, ih t.1 [t.2] (by simp)]
      rw [groups_block_append k vs hvs (t :: l) (by rintro p r h; injection h with h; subst h; exact ht)]
      simp

theorem encode_eq (l : List (Nat × Nat)) :
    encode w1 w2 wc l = (groups l).flatMap (encGrp w1 w2 wc) := by
  cases l with
  | nil => simp [encode, groups, writeGroup, startAppend]
  | cons t l =>
    have : append w1 w2 wc startAppend t = { prev := (t.1 : Int), vs := [t.2], out := [] } := by
      have : ((t.1 : Int) = -1) = False := by rw [eq_iff_iff, iff_false]; omega
      simp [append, startAppend, writeGroup, this]
    rw [encode, List.foldl_cons, this, foldl_append_out l t.1 [t.2] (by simp)]
    simp

/-! ## Reading back -/

/-- The values `vs` can be read from address `p` on. -/
def VAt (w2 : Width) (m : Mem) (p : Nat) (vs : List Int) : Prop :=
  ∀ i (h : i < vs.length), w2.read m (p + i * w2.size) = vs[i]

theorem vAt_cons {p v vs} : VAt w2 m p (v :: vs) ↔ w2.read m p = v ∧ VAt w2 m (p + w2.size) vs := by
  constructor
  · intro h
    refine ⟨by have := h 0 (by simp); rwa [Nat.zero_mul, Nat.add_zero, List.getElem_cons_zero] at this,
      fun i hi => ?_⟩
    have := h (i + 1) (by simp; omega)
    rw [Nat.add_mul, Nat.one_mul, ← Nat.add_assoc, Nat.add_right_comm] at this
    simpa using this
  · rintro ⟨h1, h2⟩ i hi
    cases i with
    | zero => simpa using h1
    | succ i =>
      have := h2 i (by simpa using hi)
      rw [Nat.add_mul, Nat.one_mul, ← Nat.add_assoc, Nat.add_right_comm]
      simpa using this

/-- Size in bytes of a group with `n` values. -/
def gsz (w1 w2 wc : Width) (n : Nat) : Nat := w1.size + wc.size + n * w2.size

/-- Size in bytes of a list of groups. -/
def gszs (w1 w2 wc : Width) : List Grp → Nat
  | [] => 0
  | g :: gs => gsz w1 w2 wc g.2.length + gszs w1 w2 wc gs

/-- The groups `gs` can be read from address `p` on. -/
def GAt (w1 w2 wc : Width) (m : Mem) (p : Nat) : List Grp → Prop
  | [] => True
  | g :: gs => w1.read m p = g.1 ∧ rc w1 wc m p = g.2.length ∧ VAt w2 m (p + w1.size + wc.size) g.2 ∧
      g.2 ≠ [] ∧ GAt w1 w2 wc m (p + gsz w1 w2 wc g.2.length) gs

/-- All values and all group sizes fit their fields. -/
def Fits (w1 w2 wc : Width) (l : List (Nat × Nat)) : Prop :=
  ∀ p ∈ l, p.1 < w1.safe ∧ p.2 < w2.safe ∧ (l.filter fun q => q.1 = p.1).length < wc.safe

theorem flatMap_enc_length (vs : List Nat) : (vs.flatMap w2.enc).length = vs.length * w2.size := by
  induction vs with
  | nil => simp
  | cons v vs ih =>
    simp only [List.flatMap_cons, List.length_append, Width.enc_length, ih, List.length_cons]
    rw [Nat.add_mul]; omega

theorem vAt_of_placed {p : Nat} {vs : List Nat} (hf : ∀ v ∈ vs, v < w2.safe)
    (h : Placed m p (vs.flatMap w2.enc)) : VAt w2 m p (vs.map fun (v : Nat) => (v : Int)) := by
  induction vs generalizing p with
  | nil => intro i hi; simp at hi
  | cons v vs ih =>
    rw [List.flatMap_cons, placed_append, Width.enc_length] at h
    rw [List.map_cons, vAt_cons]
    exact ⟨w2.read_enc m p v (hf v (by simp)) h.1, ih (fun v hv => hf v (by simp [hv])) h.2⟩

theorem encGrp_length (g : Nat × List Nat) :
    (encGrp w1 w2 wc g).length = gsz w1 w2 wc g.2.length := by
  simp only [encGrp, List.length_append, Width.enc_length, flatMap_enc_length, gsz]

theorem gAt_of_placed {p : Nat} {gs : List (Nat × List Nat)}
    (hf : ∀ g ∈ gs, g.1 < w1.safe ∧ (∀ v ∈ g.2, v < w2.safe) ∧ g.2.length < wc.safe ∧ g.2 ≠ [])
    (h : Placed m p (gs.flatMap (encGrp w1 w2 wc))) : GAt w1 w2 wc m p (gs.map grpI) := by
  induction gs generalizing p with
  | nil => simp [GAt]
  | cons g gs ih =>
    rw [List.flatMap_cons, placed_append, encGrp_length] at h
    obtain ⟨h1, h2⟩ := h
    rw [encGrp, placed_append, placed_append] at h1
    obtain ⟨⟨h1, h3⟩, h4⟩ := h1
    simp only [List.length_append, Width.enc_length] at h3 h4
    obtain ⟨f1, f2, f3, f4⟩ := hf g (by simp)
    refine ⟨w1.read_enc m p _ f1 h1, ?_, ?_, by simpa [grpI] using f4, ?_⟩
    · simpa [rc, grpI] using wc.read_enc m _ _ f3 h3
    · rw [Nat.add_assoc]; exact vAt_of_placed f2 h4
    · simpa [grpI] using ih (fun g hg => hf g (by simp [hg])) h2

theorem gAt_encode {l : List (Nat × Nat)} {a : Nat} (hf : Fits w1 w2 wc l)
    (h : Placed m a (encode w1 w2 wc l)) : GAt w1 w2 wc m a ((groups l).map grpI) := by
  rw [encode_eq] at h
  refine gAt_of_placed (fun g hg => ?_) h
  have hne := groups_ne hg
  have hmem : ∀ v ∈ g.2, (g.1, v) ∈ l := fun v hv => groups_mem hg hv
  obtain ⟨v0, hv0⟩ := List.exists_mem_of_ne_nil _ hne
  have h0 := hf _ (hmem v0 hv0)
  exact ⟨h0.1, fun v hv => (hf _ (hmem v hv)).2.1,
    Nat.lt_of_le_of_lt (groups_len_le hg) h0.2.2, hne⟩

theorem encode_length (l : List (Nat × Nat)) :
    (encode w1 w2 wc l).length = gszs w1 w2 wc ((groups l).map grpI) := by
  rw [encode_eq]
  induction groups l with
  | nil => simp [gszs]
  | cons g gs ih =>
    rw [List.flatMap_cons, List.length_append, encGrp_length, ih]; simp [gszs, grpI]

/-! ## Full scan -/

/-- Remaining input of an iterator state: the values `vs` of the current group `k`, then `gs`. -/
structure Pos (w1 w2 wc : Width) (m : Mem) (s : St) (k : Int) (vs : List Int) (gs : List Grp) :
    Prop where
  ign : s.ign = false
  count : s.count = vs.length
  vals : VAt w2 m s.current vs
  grps : GAt w1 w2 wc m (s.current + vs.length * w2.size) gs
  stop : s.stop = s.current + vs.length * w2.size + gszs w1 w2 wc gs
  key : vs ≠ [] → s.v1 = k

/-- The pairs that remain. -/
def rem (k : Int) (vs : List Int) (gs : List Grp) : List Pair := vs.map (fun v => (k, v)) ++ ungroup gs

/-- State right after `next`, with current pair `(k, v)`. -/
structure At (w1 w2 wc : Width) (m : Mem) (s : St) (k v : Int) (vs : List Int) (gs : List Grp) :
    Prop extends Pos w1 w2 wc m s k vs gs where
  v1 : s.v1 = k
  v2 : s.v2 = v
  prev : w2.read m (s.current - w2.size) = v
  ge : w2.size ≤ s.current
  cg : s.countgroup ≠ 0

theorem gszs_pos (g : Grp) (gs : List Grp) : 0 < gszs w1 w2 wc (g :: gs) := by
  have := w1.size_pos; simp only [gszs, gsz]; omega

theorem Pos.hasNext_iff {s k vs gs} (h : Pos w1 w2 wc m s k vs gs) :
    hasNext s = true ↔ rem k vs gs ≠ [] ∧ (vs ≠ [] ∨ gs ≠ []) := by
  have h2 := w2.size_pos
  simp only [hasNext, h.stop, decide_eq_true_eq, rem]
  cases vs with
  | nil =>
    cases gs with
    | nil => simp [gszs, ungroup]
    | cons g gs =>
      have := gszs_pos (w1 := w1) (w2 := w2) (wc := wc) g gs
      have hne := h.grps.2.2.2.1
      simp only [List.length_nil, Nat.zero_mul, Nat.add_zero, ne_eq, reduceCtorEq,
        not_false_eq_true, or_true, and_true]
      refine ⟨fun _ hx => ?_, fun _ => by omega⟩
      apply hne
      have hx' := congrArg List.length hx
      simp [ungroup] at hx'
      exact hx'.1
  | cons v vs =>
    simp only [List.map_cons, List.cons_append, ne_eq, reduceCtorEq, not_false_eq_true, true_or,
      and_true, iff_true, List.length_cons, Nat.add_mul]
    omega

theorem Pos.hasNext_false {s k vs gs} (h : Pos w1 w2 wc m s k vs gs) :
    hasNext s = false ↔ vs = [] ∧ gs = [] := by
  have h2 := w2.size_pos
  simp only [hasNext, h.stop, decide_eq_false_iff_not]
  cases vs with
  | nil =>
    cases gs with
    | nil => simp [gszs]
    | cons g gs =>
      have := gszs_pos (w1 := w1) (w2 := w2) (wc := wc) g gs
      simp; omega
  | cons v vs =>
    simp only [List.length_cons, Nat.add_mul, reduceCtorEq, false_and, iff_false]
    omega

/-- `next` inside a group. -/
theorem Pos.next_cons {s k v vs gs} (h : Pos w1 w2 wc m s k (v :: vs) gs) (hcg : s.countgroup ≠ 0) :
    At w1 w2 wc m (next w1 w2 wc m s) k v vs gs := by
  obtain ⟨hr, hv⟩ := vAt_cons.1 h.vals
  have hkey := h.key (by simp)
  have hcount := h.count
  have hstop := h.stop
  have hg := h.grps
  simp only [List.length_cons, Nat.add_mul, Nat.one_mul] at hcount hstop hg
  have hn : next w1 w2 wc m s =
      { s with v2 := w2.read m s.current, current := s.current + w2.size, count := s.count - 1 } := by
    rw [next, if_neg (by rw [h.ign]; simp), if_pos (by omega)]
  rw [hn]
  refine { ign := h.ign, count := by simp only; omega, vals := hv, grps := ?_, stop := ?_,
           key := fun _ => hkey, v1 := hkey, v2 := hr, prev := ?_, ge := by simp only; omega, cg := hcg }
  · simp only; rw [show s.current + w2.size + vs.length * w2.size
      = s.current + (vs.length * w2.size + w2.size) by omega]; exact hg
  · simp only; omega
  · simp only [Nat.add_sub_cancel]; exact hr

/-- `next` at the start of a group. -/
theorem Pos.next_nil {s k k' v vs gs} (h : Pos w1 w2 wc m s k [] ((k', v :: vs) :: gs)) :
    At w1 w2 wc m (next w1 w2 wc m s) k' v vs gs := by
  obtain ⟨hk, hc, hv, hne, hg⟩ := h.grps
  have hcount := h.count
  have hstop := h.stop
  simp only [List.length_nil, Nat.zero_mul, Nat.add_zero, gszs, gsz, List.length_cons] at hk hc hv hg hcount hstop
  obtain ⟨hr, hv'⟩ := vAt_cons.1 hv
  have hn : next w1 w2 wc m s =
      { s with v1 := w1.read m s.current, count := rc w1 wc m s.current - 1,
               countgroup := rc w1 wc m s.current,
               v2 := w2.read m (s.current + w1.size + wc.size),
               current := s.current + w1.size + wc.size + w2.size } := by
    rw [next, if_neg (by rw [h.ign]; simp), if_neg (by omega)]
  rw [hn]
  simp only [Nat.add_mul] at hg hstop
  refine { ign := h.ign, count := by simp only; omega, vals := hv', grps := ?_, stop := ?_,
           key := fun _ => hk, v1 := hk, v2 := hr, prev := ?_, ge := by simp only; omega,
           cg := by simp only; omega }
  · simp only; rw [show s.current + w1.size + wc.size + w2.size + vs.length * w2.size
      = s.current + (w1.size + wc.size + (vs.length * w2.size + 1 * w2.size)) by omega]; exact hg
  · simp only; omega
  · simp only [Nat.add_sub_cancel]; exact hr

/-- Well-formed mid-group states: the size of the group is known. -/
def CgOk (s : St) (vs : List Int) : Prop := vs ≠ [] → s.countgroup ≠ 0

theorem Pos.yields {s k vs gs} (h : Pos w1 w2 wc m s k vs gs) (hcg : CgOk s vs) :
    Yields (itr w1 w2 wc m) s (rem k vs gs) := by
  generalize hd : (rem k vs gs).length = d
  induction d generalizing s k vs gs with
  | zero =>
    have hnil : rem k vs gs = [] := List.eq_nil_of_length_eq_zero hd
    rw [hnil, yields_nil]
    have := mt h.hasNext_iff.1 (by rw [hnil]; simp)
    simpa [itr] using this
  | succ d ih =>
    cases vs with
    | cons v vs =>
      have hat := h.next_cons (hcg (by simp))
      have e : rem k (v :: vs) gs = (k, v) :: rem k vs gs := by simp [rem]
      rw [e, yields_cons]
      refine ⟨?_, ?_, ?_⟩
      · exact h.hasNext_iff.2 ⟨by simp [rem], .inl (by simp)⟩
      · simp only [itr]; rw [hat.v1, hat.v2]
      · exact ih hat.toPos (fun _ => hat.cg) (by rw [e] at hd; simpa using hd)
    | nil =>
      cases gs with
      | nil => simp [rem, ungroup] at hd
      | cons g gs =>
        obtain ⟨k', vs⟩ := g
        cases vs with
        | nil => exact absurd rfl h.grps.2.2.2.1
        | cons v vs =>
          have hat := h.next_nil
          have e : rem k [] ((k', v :: vs) :: gs) = (k', v) :: rem k' vs gs := by simp [rem, ungroup]
          rw [e, yields_cons]
          refine ⟨?_, ?_, ?_⟩
          · exact h.hasNext_iff.2 ⟨by rw [e]; simp, .inr (by simp)⟩
          · simp only [itr]; rw [hat.v1, hat.v2]
          · exact ih hat.toPos (fun _ => hat.cg) (by rw [e] at hd; simpa using hd)

theorem setup_pos {a : Nat} {gs : List Grp} (h : GAt w1 w2 wc m a gs) :
    Pos w1 w2 wc m (setup a (a + gszs w1 w2 wc gs)) 0 [] gs where
  ign := rfl
  count := rfl
  vals := fun i hi => by simp at hi
  grps := by simpa [setup] using h
  stop := by simp [setup]
  key := fun h => absurd rfl h

/-! ## Binary search -/

theorem bsearch_spec {p : Nat} {vs : List Int} (h : VAt w2 m p vs) (hs : vs.Pairwise (· < ·))
    (c : Int) (i j : Nat) (hij : i ≤ j) (hj : j ≤ vs.length) :
    ∃ i', i ≤ i' ∧ i' ≤ j ∧ (bsearch w2 m c (p + i * w2.size) (p + j * w2.size)).1 = p + i' * w2.size ∧
      (∀ k (hk : k < vs.length), i ≤ k → k < i' → vs[k] < c) ∧
      (∀ k (hk : k < vs.length), i' ≤ k → k < j → c ≤ vs[k]) ∧
      ((bsearch w2 m c (p + i * w2.size) (p + j * w2.size)).2 = true ↔
        ∃ hl : i' < vs.length, i' < j ∧ vs[i'] = c) := by
  have hB := w2.size_pos
  have hlt : ∀ a b (ha : a < vs.length) (hb : b < vs.length), a < b → vs[a] < vs[b] :=
    fun a b ha hb hab => List.pairwise_iff_getElem.mp hs a b ha hb hab
  generalize hd : j - i = d
  induction d using Nat.strongRecOn generalizing i j with
  | _ d ih =>
    rw [bsearch]
    by_cases hc : i < j
    · have hlt' : p + i * w2.size < p + j * w2.size := by
        have := Nat.mul_lt_mul_of_pos_right hc hB; omega
      rw [if_pos hlt']
      have e1 : (p + j * w2.size - (p + i * w2.size)) / w2.size = j - i := by
        rw [Nat.add_sub_add_left, ← Nat.sub_mul, Nat.mul_div_cancel _ hB]
      have em : p + i * w2.size + (j - i) / 2 * w2.size = p + (i + (j - i) / 2) * w2.size := by
        rw [Nat.add_mul]; omega
      have es : p + (i + (j - i) / 2) * w2.size + w2.size = p + (i + (j - i) / 2 + 1) * w2.size := by
        rw [Nat.add_mul (i + (j - i) / 2) 1]; omega
      simp only [e1, em]
      have hm : i + (j - i) / 2 < vs.length := by omega
      rw [h _ hm]
      generalize hmid : i + (j - i) / 2 = mid at *
      by_cases h1 : vs[mid] < c
      · simp only [if_pos h1, es]
        obtain ⟨i', p1, p2, p3, p4, p5, p6⟩ := ih (j - (mid + 1)) (by omega) (mid + 1) j (by omega) hj rfl
        refine ⟨i', by omega, p2, p3, fun k hk hk1 hk2 => ?_, p5, p6⟩
        by_cases hx : k < mid + 1
        · by_cases hy : k = mid
          · subst hy; exact h1
          · have := hlt k mid hk hm (by omega); omega
        · exact p4 k hk (by omega) hk2
      · simp only [if_neg h1]
        by_cases h2 : vs[mid] > c
        · simp only [if_pos h2]
          obtain ⟨i', p1, p2, p3, p4, p5, p6⟩ := ih (mid - i) (by omega) i mid (by omega) (by omega) rfl
          refine ⟨i', p1, by omega, p3, p4, fun k hk hk1 hk2 => ?_, ?_⟩
          · by_cases hx : k < mid
            · exact p5 k hk hk1 hx
            · by_cases hy : k = mid
              · subst hy; omega
              · have := hlt mid k hm hk (by omega); omega
          · rw [p6]
            constructor
            · rintro ⟨a, b, c⟩; exact ⟨a, by omega, c⟩
            · rintro ⟨a, b, c⟩
              refine ⟨a, ?_, c⟩
              by_cases hx : i' < mid
              · exact hx
              · have : i' = mid := by omega
                subst this; omega
        · simp only [if_neg h2]
          have hv : vs[mid] = c := by omega
          refine ⟨mid, by omega, by omega, rfl, fun k hk hk1 hk2 => ?_, fun k hk hk1 hk2 => ?_, ?_⟩
          · have := hlt k mid hk hm hk2; omega
          · by_cases hy : k = mid
            · subst hy; omega
            · have := hlt mid k hm hk (by omega); omega
          · simp only [true_iff]; exact ⟨hm, by omega, hv⟩
    · have : i = j := by omega
      subst this
      rw [if_neg (by omega)]
      refine ⟨i, Nat.le_refl _, Nat.le_refl _, rfl, fun k hk h1 h2 => by omega,
        fun k hk h1 h2 => by omega, ?_⟩
      simp

/-! ## Lookups -/

theorem find_spec {p : Nat} {gs : List Grp} (h : GAt w1 w2 wc m p gs)
    (hk : gs.Pairwise (fun g h => g.1 < h.1)) (c1 : Int) :
    (∃ pre vs post, gs = pre ++ (c1, vs) :: post ∧
      find w1 w2 wc m c1 p (p + gszs w1 w2 wc gs) =
        (p + gszs w1 w2 wc pre, p + gszs w1 w2 wc pre + gsz w1 w2 wc vs.length) ∧
      GAt w1 w2 wc m (p + gszs w1 w2 wc pre) [(c1, vs)]) ∨
    ((∀ g ∈ gs, g.1 ≠ c1) ∧ find w1 w2 wc m c1 p (p + gszs w1 w2 wc gs) =
        (p + gszs w1 w2 wc gs, p + gszs w1 w2 wc gs)) := by
  induction gs generalizing p with
  | nil => right; refine ⟨by simp, ?_⟩; rw [find, if_neg (by simp [gszs])]; simp [gszs]
  | cons g gs ih =>
    obtain ⟨hr, hc, hv, hne, hg⟩ := h
    rw [List.pairwise_cons] at hk
    have hpos := gszs_pos (w1 := w1) (w2 := w2) (wc := wc) g gs
    rw [find, if_pos (by omega)]
    simp only [hr, hc, Int.toNat_natCast]
    by_cases h1 : g.1 = c1
    · left
      refine ⟨[], g.2, gs, by rw [← h1]; rfl, ?_, ?_⟩
      · rw [if_pos h1]; simp [gszs, gsz]
      · exact ⟨by simpa [gszs] using hr.trans h1, by simpa [gszs] using hc,
          by simpa [gszs] using hv, hne, trivial⟩
    · rw [if_neg h1]
      by_cases h2 : g.1 > c1
      · right
        rw [if_pos h2]
        refine ⟨?_, rfl⟩
        intro x hx
        rcases List.mem_cons.1 hx with rfl | hx
        · exact h1
        · have := hk.1 x hx; omega
      · rw [if_neg h2]
        have e : p + gszs w1 w2 wc (g :: gs) = p + gsz w1 w2 wc g.2.length + gszs w1 w2 wc gs := by
          simp [gszs]; omega
        rw [e]
        rcases ih hg hk.2 with ⟨pre, vs, post, h3, h4, h5⟩ | ⟨h3, h4⟩
        · left
          have e2 : p + gszs w1 w2 wc (g :: pre) = p + gsz w1 w2 wc g.2.length + gszs w1 w2 wc pre := by
            simp [gszs]; omega
          refine ⟨g :: pre, vs, post, by rw [h3]; rfl, ?_, ?_⟩
          · rw [e2]; exact h4
          · rw [e2]; exact h5
        · right
          refine ⟨?_, h4⟩
          intro x hx
          rcases List.mem_cons.1 hx with rfl | hx
          · exact h1
          · exact h3 x hx

/-- A state over sorted remaining data. -/
structure SPos (w1 w2 wc : Width) (m : Mem) (s : St) (k : Int) (vs : List Int) (gs : List Grp) :
    Prop extends Pos w1 w2 wc m s k vs gs where
  cgok : CgOk s vs
  gsorted : GSorted ((k, vs) :: gs)

theorem find?_append_of_ne {pre post : List Grp} {c1 : Int} {vs : List Int}
    (hk : (pre ++ (c1, vs) :: post).Pairwise (fun g h => g.1 < h.1)) :
    (pre ++ (c1, vs) :: post).find? (fun g => g.1 = c1) = some (c1, vs) := by
  rw [List.pairwise_append] at hk
  rw [List.find?_append]
  have : pre.find? (fun g => g.1 = c1) = none := by
    rw [List.find?_eq_none]; intro x hx
    have := hk.2.2 x hx (c1, vs) (by simp)
    simp only at this; simp; omega
  rw [this]; simp

theorem rem_nil_yields {s : St} (h : hasNext s = false) : Yields (itr w1 w2 wc m) s [] := by
  rw [yields_nil]; exact h

/-- What `setup(c1)` prepares: a fresh iterator over at most one group. -/
theorem setupC1_spec {p : Nat} {gs : List Grp} (h : GAt w1 w2 wc m p gs)
    (hk : gs.Pairwise (fun g h => g.1 < h.1)) (c1 : Int) :
    ∃ q gs', setupC1 w1 w2 wc m c1 p (p + gszs w1 w2 wc gs) = setup q (q + gszs w1 w2 wc gs') ∧
      GAt w1 w2 wc m q gs' ∧ ungroup gs' = (ungroup gs).filter (fun x => x.1 = c1) ∧
      (∀ g ∈ gs', g ∈ gs) ∧ gs'.length ≤ 1 := by
  rcases find_spec h hk c1 with ⟨pre, vs, post, rfl, h4, h5⟩ | ⟨h3, h4⟩
  · refine ⟨p + gszs w1 w2 wc pre, [(c1, vs)], ?_, h5, ?_, by simp, by simp⟩
    · rw [setupC1, h4, if_neg (by simp)]; simp [gszs]
    · rw [filter_ungroup_fst hk, find?_append_of_ne hk]; simp [ungroup]
  · refine ⟨p + gszs w1 w2 wc gs, [], ?_, trivial, ?_, by simp, by simp⟩
    · rw [setupC1, h4, if_neg (by simp)]; simp [gszs]
    · rw [filter_ungroup_fst hk, List.find?_eq_none.2]
      · simp [ungroup]
      · simpa using h3

theorem setupC12_spec {p : Nat} {gs : List Grp} (h : GAt w1 w2 wc m p gs) (hs : GSorted gs)
    (c1 c2 : Int) :
    (((c1, c2) ∈ ungroup gs) ∧ Pos w1 w2 wc m (setupC12 w1 w2 wc m c1 c2 p (p + gszs w1 w2 wc gs)) c1 [c2] [] ∧
      (setupC12 w1 w2 wc m c1 c2 p (p + gszs w1 w2 wc gs)).countgroup = 1) ∨
    ((c1, c2) ∉ ungroup gs ∧ hasNext (setupC12 w1 w2 wc m c1 c2 p (p + gszs w1 w2 wc gs)) = false) := by
  have hk := hs.keys
  rcases find_spec h hk c1 with ⟨pre, vs, post, rfl, h4, h5⟩ | ⟨h3, h4⟩
  · have hmem : (c1, c2) ∈ ungroup (pre ++ (c1, vs) :: post) ↔ c2 ∈ vs := by
      rw [mem_ungroup]
      constructor
      · rintro ⟨g, hg, h1, h2⟩
        rw [List.pairwise_append, List.pairwise_cons] at hk
        rcases List.mem_append.1 hg with hg | hg
        · have := hk.2.2 g hg (c1, vs) (by simp); simp only at this h1; omega
        · rcases List.mem_cons.1 hg with rfl | hg
          · exact h2
          · have := hk.2.1.1 g hg; simp only at this h1; omega
      · intro hv; exact ⟨(c1, vs), by simp, rfl, hv⟩
    have hvs : vs.Pairwise (· < ·) := hs.vals (c1, vs) (by simp)
    rw [hmem]
    generalize hq : p + gszs w1 w2 wc pre = q at *
    obtain ⟨hr, hc, hv, hne, -⟩ := h5
    simp only at hr hc hv hne
    have hstop : q + gsz w1 w2 wc vs.length = q + w1.size + wc.size + vs.length * w2.size := by
      simp [gsz]; omega
    obtain ⟨i', p1, p2, p3, p4, p5, p6⟩ := bsearch_spec hv hvs c2 0 vs.length (by omega) (Nat.le_refl _)
    simp only [Nat.zero_mul, Nat.add_zero] at p3 p6
    have hlt : q < q + gsz w1 w2 wc vs.length := by have := w1.size_pos; simp [gsz]; omega
    have hend : q + gsz w1 w2 wc vs.length ≤ p + gszs w1 w2 wc (pre ++ (c1, vs) :: post) := by
      rw [← hq]
      have : ∀ pre, gszs w1 w2 wc (pre ++ (c1, vs) :: post) =
          gszs w1 w2 wc pre + (gsz w1 w2 wc vs.length + gszs w1 w2 wc post) := by
        intro pre; induction pre with
        | nil => simp [gszs]
        | cons x xs ih => simp [gszs, ih]; omega
      rw [this]; omega
    have hunf : setupC12 w1 w2 wc m c1 c2 p (p + gszs w1 w2 wc (pre ++ (c1, vs) :: post)) =
        (let st := setup q (q + gsz w1 w2 wc vs.length)
         let b := bsearch w2 m c2 (q + w1.size + wc.size) (q + gsz w1 w2 wc vs.length)
         let cur := if b.2 then b.1 else q + w1.size + wc.size
         if w2.read m cur = c2 then
           { st with v1 := c1, current := cur, stop := cur + w2.size, count := 1, countgroup := 1 }
         else { st with v1 := c1, current := p + gszs w1 w2 wc (pre ++ (c1, vs) :: post),
                        count := rc w1 wc m q, countgroup := rc w1 wc m q }) := by
      rw [setupC12, h4]; simp only [if_pos hlt]
    rw [hunf, hstop]
    simp only
    cases hb : (bsearch w2 m c2 (q + w1.size + wc.size) (q + w1.size + wc.size + vs.length * w2.size)).2 with
    | true =>
      obtain ⟨hl, _, hval⟩ := p6.1 hb
      simp only [if_true, p3, hv i' hl, hval]
      refine .inl ⟨by rw [← hval]; exact List.getElem_mem _, ⟨rfl, rfl, ?_, ?_, ?_, fun _ => rfl⟩, trivial⟩
      · rw [vAt_cons]; exact ⟨by rw [← hval]; exact hv i' hl, fun i hi => by simp at hi⟩
      · simp [GAt]
      · simp [gszs]
    | false =>
      have hnot : c2 ∉ vs := by
        intro hin
        obtain ⟨k, hk', rfl⟩ := List.getElem_of_mem hin
        have hki : ¬ k < i' := fun hlt => by have := p4 k hk' (by omega) hlt; omega
        have hi'l : i' < vs.length := by omega
        have h5 := p5 i' hi'l (Nat.le_refl _) hi'l
        have : vs[i'] = vs[k] := by
          by_cases he : i' = k
          · subst he; rfl
          · have := List.pairwise_iff_getElem.mp hvs i' k hi'l hk' (by omega); omega
        have := p6.2 ⟨hi'l, hi'l, this⟩
        rw [hb] at this; simp at this
      obtain ⟨v0, vs', rfl⟩ := List.exists_cons_of_ne_nil hne
      have hr0 : w2.read m (q + w1.size + wc.size) = v0 := (vAt_cons.1 hv).1
      have hne0 : v0 ≠ c2 := fun h => hnot (by simp [h])
      simp only [Bool.false_eq_true, if_false, hr0, if_neg hne0]
      refine .inr ⟨hnot, ?_⟩
      rw [hasNext, decide_eq_false_iff_not]
      rw [hstop] at hend
      simp only [setup]
      omega
  · right
    refine ⟨?_, ?_⟩
    · rw [mem_ungroup]
      rintro ⟨g, hg, h1, _⟩; exact h3 g hg h1.symm
    · rw [setupC12, h4]; simp [setup, hasNext]

/-! ## Seeking -/

theorem skip_spec {p : Nat} {gs : List Grp} (h : GAt w1 w2 wc m p gs) (c1 term : Int)
    (hterm : term < c1) :
    ∃ gs1 gs2, gs = gs1 ++ gs2 ∧ (∀ g ∈ gs1, g.1 < c1) ∧
      (skip w1 w2 wc m c1 p (p + gszs w1 w2 wc gs) term).1 + gszs w1 w2 wc gs2 = p + gszs w1 w2 wc gs ∧
      GAt w1 w2 wc m (skip w1 w2 wc m c1 p (p + gszs w1 w2 wc gs) term).1 gs2 ∧
      match gs2 with
      | [] => (skip w1 w2 wc m c1 p (p + gszs w1 w2 wc gs) term).2 < c1
      | g :: _ => (skip w1 w2 wc m c1 p (p + gszs w1 w2 wc gs) term).2 = g.1 ∧ c1 ≤ g.1 := by
  induction gs generalizing p term with
  | nil =>
    refine ⟨[], [], rfl, by simp, ?_⟩
    rw [skip, if_neg (by simp [gszs])]
    exact ⟨rfl, trivial, hterm⟩
  | cons g gs ih =>
    obtain ⟨hr, hc, hv, hne, hg⟩ := h
    have hpos := gszs_pos (w1 := w1) (w2 := w2) (wc := wc) g gs
    rw [skip, if_pos (by omega)]
    simp only [hr, hc, Int.toNat_natCast]
    by_cases h1 : g.1 ≥ c1
    · simp only [if_pos h1]
      exact ⟨[], g :: gs, rfl, by simp, rfl, ⟨hr, hc, hv, hne, hg⟩, rfl, h1⟩
    · simp only [if_neg h1]
      have e : p + gszs w1 w2 wc (g :: gs) = p + gsz w1 w2 wc g.2.length + gszs w1 w2 wc gs := by
        simp [gszs]; omega
      have e2 : p + w1.size + (wc.size + g.2.length * w2.size) = p + gsz w1 w2 wc g.2.length := by
        simp [gsz]; omega
      rw [e, e2]
      obtain ⟨gs1, gs2, h3, h4, h5⟩ := ih hg g.1 (by omega)
      refine ⟨g :: gs1, gs2, by rw [h3]; rfl, ?_, h5⟩
      intro x hx
      rcases List.mem_cons.1 hx with rfl | hx
      · omega
      · exact h4 x hx

/-- Stepping back over the current value. -/
theorem At.back {s k v vs gs} (h : At w1 w2 wc m s k v vs gs) :
    Pos w1 w2 wc m { s with count := s.count + 1, current := s.current - w2.size } k (v :: vs) gs ∧
    CgOk { s with count := s.count + 1, current := s.current - w2.size } (v :: vs) := by
  have hge := h.ge
  have hcount := h.count
  have hstop := h.stop
  have hg := h.grps
  refine ⟨⟨h.ign, ?_, ?_, ?_, ?_, fun _ => h.v1⟩, fun _ => h.cg⟩
  · simp only [List.length_cons]; omega
  · rw [vAt_cons]
    refine ⟨h.prev, ?_⟩
    simp only
    rw [Nat.sub_add_cancel hge]; exact h.vals
  · simp only [List.length_cons, Nat.add_mul, Nat.one_mul]
    rw [show s.current - w2.size + (vs.length * w2.size + w2.size) = s.current + vs.length * w2.size by omega]
    exact hg
  · simp only [List.length_cons, Nat.add_mul, Nat.one_mul]; omega

theorem vAt_drop {p vs} (h : VAt w2 m p vs) (i : Nat) : VAt w2 m (p + i * w2.size) (vs.drop i) := by
  intro j hj
  simp only [List.length_drop] at hj
  have := h (i + j) (by omega)
  rw [Nat.add_mul, ← Nat.add_assoc] at this
  rw [this, List.getElem_drop]

theorem At.movetoSecond {s k v vs gs} (h : At w1 w2 wc m s k v vs gs) (hs : (v :: vs).Pairwise (· < ·))
    (c2 : Int) : ∃ vs', Pos w1 w2 wc m (movetoSecond w1 w2 wc m c2 s) k vs' gs ∧
      CgOk (Cluster.movetoSecond w1 w2 wc m c2 s) vs' ∧ vs' = (v :: vs).filter (fun x => c2 ≤ x) := by
  have hB := w2.size_pos
  rw [List.pairwise_cons] at hs
  unfold Cluster.movetoSecond
  rw [if_neg h.cg]
  dsimp only
  by_cases hc : c2 ≤ v
  · rw [if_pos (by rw [h.v2]; exact hc)]
    refine ⟨v :: vs, h.back.1, h.back.2, ?_⟩
    rw [List.filter_eq_self.2]
    intro x hx
    rcases List.mem_cons.1 hx with rfl | hx
    · simpa using hc
    · have := hs.1 x hx; simp; omega
  · rw [if_neg (by rw [h.v2]; exact hc)]
    have hcount := h.count
    simp only [hcount, Int.toNat_natCast]
    obtain ⟨i', p1, p2, p3, p4, p5, -⟩ := bsearch_spec h.vals hs.2 c2 0 vs.length (by omega) (Nat.le_refl _)
    simp only [Nat.zero_mul, Nat.add_zero] at p3
    have hsub : s.current + vs.length * w2.size - (s.current + i' * w2.size) = (vs.length - i') * w2.size := by
      rw [Nat.sub_mul]; omega
    have hle : i' * w2.size ≤ vs.length * w2.size := Nat.mul_le_mul_right _ p2
    refine ⟨vs.drop i', ⟨h.ign, ?_, ?_, ?_, ?_, fun _ => h.v1⟩, fun _ => h.cg, ?_⟩
    · simp only [p3, hsub, Nat.mul_div_cancel _ hB, List.length_drop]
    · simp only [p3]; exact vAt_drop h.vals i'
    · simp only [p3, List.length_drop, Nat.sub_mul]
      rw [show s.current + i' * w2.size + (vs.length * w2.size - i' * w2.size) = s.current + vs.length * w2.size by omega]
      exact h.grps
    · simp only [p3, List.length_drop, Nat.sub_mul]
      have := h.stop; omega
    · rw [List.filter_cons_of_neg (by simpa using hc)]
      exact (filter_ge_drop c2 i' p2 (fun k hk hki => p4 k hk (by omega) hki)
        (fun k hk hki => p5 k hk hki hk)).symm

theorem movetoSecond_next (c2 : Int) (s : St) (h0 : s.countgroup = 0)
    (h1 : (next w1 w2 wc m s).countgroup ≠ 0) :
    movetoSecond w1 w2 wc m c2 s = movetoSecond w1 w2 wc m c2 (next w1 w2 wc m s) := by
  conv => lhs; unfold Cluster.movetoSecond
  conv => rhs; unfold Cluster.movetoSecond
  simp only [if_pos h0, if_neg h1]

theorem At.moveto {s k v vs gs} (h : At w1 w2 wc m s k v vs gs) (hs : GSorted ((k, v :: vs) :: gs))
    (c1 c2 : Int) : ∃ k' vs' gs', Pos w1 w2 wc m (moveto w1 w2 wc m c1 c2 s) k' vs' gs' ∧
      CgOk (Cluster.moveto w1 w2 wc m c1 c2 s) vs' ∧ (vs' ≠ [] → GSorted ((k', vs') :: gs')) ∧ GSorted gs' ∧
      rem k' vs' gs' = ((k, v) :: rem k vs gs).filter (fun p => decide (Pair.le (c1, c2) p)) := by
  have hvs := hs.vals _ (List.mem_cons_self)
  have hv0 : 0 ≤ v := hs.nonneg (k, v :: vs) (by simp) v (by simp)
  have hgt := hs.head_lt
  simp only at hvs hgt
  have hrem : (k, v) :: rem k vs gs = (v :: vs).map (fun v => (k, v)) ++ ungroup gs := by simp [rem]
  rw [hrem, List.filter_append, filter_ge_map]
  have hign := h.ign
  unfold Cluster.moveto
  by_cases hA : hasNext s = false ∧ (c1 > s.v1 ∨ (s.ign = false ∧ s.v1 = c1 ∧ c2 > s.v2))
  · rw [if_pos hA]
    obtain ⟨hn, hahead⟩ := hA
    obtain ⟨rfl, rfl⟩ := h.toPos.hasNext_false.1 hn
    refine ⟨k, [], [], h.toPos, fun hx => absurd rfl hx, fun hx => absurd rfl hx, hs.tail, ?_⟩
    rw [h.v1, h.v2] at hahead
    have : ¬ c1 < k := by omega
    rw [if_neg this]
    simp only [rem, ungroup, List.map_nil, List.append_nil, List.filter_nil]
    split
    · rw [List.filter_cons_of_neg (by simp; omega)]; simp
    · rfl
  · rw [if_neg hA]
    simp only [h.v1]
    by_cases hB : c1 > k
    · rw [if_neg (by omega : ¬ c1 < k), if_neg (by omega : ¬ c1 = k)]
      simp only [if_pos hB, hign]
      -- the end of the current group
      have hcur : (if s.count ≠ 0 ∧ True then s.current + w2.size * s.count.toNat else s.current)
          = s.current + vs.length * w2.size := by
        have hc := h.count
        by_cases h0 : vs = []
        · subst h0; simp at hc; simp [hc]
        · have : s.count ≠ 0 := by
            rw [hc]; intro hx; apply h0; exact List.eq_nil_of_length_eq_zero (by omega)
          rw [if_pos ⟨this, trivial⟩, hc, Int.toNat_natCast, Nat.mul_comm]
      rw [hcur]
      obtain ⟨gs1, gs2, hgs, hlow, hpos, hgat, hterm⟩ := skip_spec h.grps c1 k hB
      rw [h.stop]
      generalize hsk : skip w1 w2 wc m c1 (s.current + vs.length * w2.size)
        (s.current + vs.length * w2.size + gszs w1 w2 wc gs) k = sk at *
      have hfilt : (ungroup gs).filter (fun p => decide (Pair.le (c1, c2) p)) =
          (ungroup gs2).filter (fun p => decide (Pair.le (c1, c2) p)) := by
        rw [hgs, ungroup_append, List.filter_append, filter_ge_ungroup_none hlow]; simp
      have hs2 : GSorted gs2 := by have := hs.tail; rw [hgs] at this; exact this.append_right
      -- the state after the skip
      have hP : ∀ k0, Pos w1 w2 wc m
          { s with current := sk.1, count := 0, countgroup := 0, v2 := -1, v1 := k,
                   stop := s.current + vs.length * w2.size + gszs w1 w2 wc gs, ign := false } k0 [] gs2 := by
        intro k0
        refine ⟨rfl, rfl, fun i hi => by simp at hi, by simpa using hgat, ?_, fun hx => absurd rfl hx⟩
        simp only [List.length_nil, Nat.zero_mul, Nat.add_zero]; omega
      cases gs2 with
      | nil =>
        simp only at hterm
        simp only [Bool.false_eq_true, if_false]
        rw [if_neg (by omega)]
        refine ⟨0, [], [], hP 0, fun hx => absurd rfl hx, fun hx => absurd rfl hx, hs2, ?_⟩
        rw [hfilt]; simp [rem, ungroup]
      | cons g gs3 =>
        obtain ⟨ht1, ht2⟩ := hterm
        obtain ⟨k', vs'⟩ := g
        simp only at ht1 ht2
        simp only [ht1, Bool.false_eq_true, if_false]
        by_cases hk' : k' = c1
        · subst hk'
          simp only [if_true]
          cases vs' with
          | nil => exact absurd rfl hgat.2.2.2.1
          | cons v' vs' =>
            have hat := (hP 0).next_nil
            have e := movetoSecond_next (w1 := w1) (w2 := w2) (wc := wc) (m := m) c2 _ rfl hat.cg
            rw [e]
            obtain ⟨vs'', q1, q2, q3⟩ := hat.movetoSecond (hs2.vals _ (List.mem_cons_self)) c2
            refine ⟨k', vs'', gs3, q1, q2, fun _ => ?_, hs2.tail, ?_⟩
            · refine ⟨List.pairwise_cons.2 ⟨hs2.head_lt, hs2.tail.keys⟩, ?_, ?_⟩
              · intro g hg
                rcases List.mem_cons.1 hg with rfl | hg
                · simp only [q3]; exact List.Pairwise.filter _ (hs2.vals _ (List.mem_cons_self))
                · exact hs2.tail.vals g hg
              · intro g hg x hx
                rcases List.mem_cons.1 hg with rfl | hg
                · simp only [q3] at hx
                  exact hs2.nonneg _ (List.mem_cons_self) x (List.mem_filter.1 hx).1
                · exact hs2.tail.nonneg g hg x hx
            · rw [hfilt, ungroup, List.filter_append, filter_ge_map,
                filter_ge_ungroup_all (fun g hg => hs2.head_lt g hg)]
              simp only [Int.lt_irrefl, if_false, if_true]
              rw [q3]; rfl
        · simp only [if_neg hk', if_true]
          refine ⟨0, [], (k', vs') :: gs3, hP 0, fun hx => absurd rfl hx, fun hx => absurd rfl hx, hs2, ?_⟩
          · rw [hfilt, filter_ge_ungroup_all]
            · simp [rem]
            · intro g hg
              rcases List.mem_cons.1 hg with rfl | hg
              · simp only; omega
              · have := hs2.head_lt g hg; simp only at this; omega
    · simp only [if_neg hB, hign, Bool.false_eq_true, if_false, h.v2]
      by_cases hC : k = c1
      · subst hC
        simp only [if_true, Int.lt_irrefl, if_false]
        obtain ⟨vs'', q1, q2, q3⟩ := h.movetoSecond hvs c2
        refine ⟨k, vs'', gs, q1, q2, fun _ => ?_, hs.tail, ?_⟩
        · refine ⟨List.pairwise_cons.2 ⟨hs.head_lt, hs.tail.keys⟩, ?_, ?_⟩
          · intro g hg
            rcases List.mem_cons.1 hg with rfl | hg
            · simp only [q3]; exact List.Pairwise.filter _ hvs
            · exact hs.tail.vals g hg
          · intro g hg x hx
            rcases List.mem_cons.1 hg with rfl | hg
            · simp only [q3] at hx
              exact hs.nonneg _ (List.mem_cons_self) x (List.mem_filter.1 hx).1
            · exact hs.tail.nonneg g hg x hx
        · rw [filter_ge_ungroup_all hgt, q3]; rfl
      · rw [if_neg hC, if_pos (by omega : c1 < k), if_neg (by omega)]
        have hb := h.back
        simp only [h.v2, hign] at hb
        refine ⟨k, v :: vs, gs, hb.1, hb.2, fun _ => hs, hs.tail, ?_⟩
        rw [filter_ge_ungroup_all (fun g hg => by have := hgt g hg; omega)]
        rfl

/-! ## Everything an opened iterator does -/

/-- The state is over sorted data and will return `out`. -/
def Good (w1 w2 wc : Width) (m : Mem) (s : St) (out : List Pair) : Prop :=
  (∃ k vs gs, Pos w1 w2 wc m s k vs gs ∧ CgOk s vs ∧ (vs ≠ [] → GSorted ((k, vs) :: gs)) ∧
    GSorted gs ∧ out = rem k vs gs) ∨ (hasNext s = false ∧ out = [])

theorem Good.yields {s out} (h : Good w1 w2 wc m s out) : Yields (itr w1 w2 wc m) s out := by
  rcases h with ⟨k, vs, gs, h1, h2, _, _, rfl⟩ | ⟨h1, rfl⟩
  · exact h1.yields h2
  · exact rem_nil_yields h1

theorem Good.next {s out} (h : Good w1 w2 wc m s out) (hn : hasNext s = true) :
    ∃ k v vs gs, At w1 w2 wc m (next w1 w2 wc m s) k v vs gs ∧ GSorted ((k, v :: vs) :: gs) ∧
      out = (k, v) :: rem k vs gs := by
  rcases h with ⟨k, vs, gs, h1, h2, h3, h4, rfl⟩ | ⟨h1, rfl⟩
  · cases vs with
    | cons v vs => exact ⟨k, v, vs, gs, h1.next_cons (h2 (by simp)), h3 (by simp), by simp [rem]⟩
    | nil =>
      cases gs with
      | nil => have := h1.hasNext_false.2 ⟨rfl, rfl⟩; rw [hn] at this; simp at this
      | cons g gs =>
        obtain ⟨k', vs⟩ := g
        cases vs with
        | nil => exact absurd rfl h1.grps.2.2.2.1
        | cons v vs => exact ⟨k', v, vs, gs, h1.next_nil, h4, by simp [rem, ungroup]⟩
  · rw [hn] at h1; simp at h1

theorem At.good {s k v vs gs} (h : At w1 w2 wc m s k v vs gs) (hs : GSorted ((k, v :: vs) :: gs)) :
    Good w1 w2 wc m s (rem k vs gs) := by
  refine .inl ⟨k, vs, gs, h.toPos, fun _ => h.cg, fun _ => ⟨?_, ?_, ?_⟩, hs.tail, rfl⟩
  · exact List.pairwise_cons.2 ⟨hs.head_lt, hs.tail.keys⟩
  · intro g hg
    rcases List.mem_cons.1 hg with rfl | hg
    · exact (List.pairwise_cons.1 (hs.vals _ (List.mem_cons_self))).2
    · exact hs.tail.vals g hg
  · intro g hg x hx
    rcases List.mem_cons.1 hg with rfl | hg
    · exact hs.nonneg _ (List.mem_cons_self) x (List.mem_cons_of_mem _ hx)
    · exact hs.tail.nonneg g hg x hx

theorem At.sorted {s k v vs gs} (_ : At w1 w2 wc m s k v vs gs) (hs : GSorted ((k, v :: vs) :: gs)) :
    Sorted ((k, v) :: rem k vs gs) := by
  have := hs.sortedS.sorted
  simpa [ungroup, rem] using this

theorem At.moveto_good {s k v vs gs} (h : At w1 w2 wc m s k v vs gs)
    (hs : GSorted ((k, v :: vs) :: gs)) (c1 c2 : Int) :
    Good w1 w2 wc m (Cluster.moveto w1 w2 wc m c1 c2 s)
      (((k, v) :: rem k vs gs).filter (fun p => decide (Pair.le (c1, c2) p))) := by
  obtain ⟨k', vs', gs', q1, q2, q3, q4, q5⟩ := h.moveto hs c1 c2
  exact .inl ⟨k', vs', gs', q1, q2, q3, q4, q5.symm⟩

theorem reached_at {s0 s out} (h0 : Good w1 w2 wc m s0 out)
    (hr : Reached (itr w1 w2 wc m) (moveto w1 w2 wc m) s0 s) :
    ∃ pre k v vs gs, At w1 w2 wc m s k v vs gs ∧ GSorted ((k, v :: vs) :: gs) ∧
      out = pre ++ (k, v) :: rem k vs gs := by
  induction hr with
  | first hn =>
    obtain ⟨k, v, vs, gs, h1, h2, h3⟩ := h0.next hn
    exact ⟨[], k, v, vs, gs, h1, h2, h3⟩
  | next _ hn ih =>
    obtain ⟨pre, k, v, vs, gs, h1, h2, h3⟩ := ih
    obtain ⟨k', v', vs', gs', q1, q2, q3⟩ := (h1.good h2).next hn
    exact ⟨pre ++ [(k, v)], k', v', vs', gs', q1, q2, by rw [h3, q3]; simp⟩
  | seek c1 c2 _ hn ih =>
    obtain ⟨pre, k, v, vs, gs, h1, h2, h3⟩ := ih
    obtain ⟨pre2, e⟩ := (h1.sorted h2).filter_ge_suffix (c1, c2)
    obtain ⟨k', v', vs', gs', q1, q2, q3⟩ := (h1.moveto_good h2 c1 c2).next hn
    rw [q3] at e
    exact ⟨pre ++ pre2, k', v', vs', gs', q1, q2, by rw [h3, e]; simp⟩

theorem Good.seekOK {s0 out} (h0 : Good w1 w2 wc m s0 out) :
    SeekOK (itr w1 w2 wc m) (moveto w1 w2 wc m) s0 out := by
  intro s hr
  obtain ⟨pre, k, v, vs, gs, h1, h2, h3⟩ := reached_at h0 hr
  have hval : (itr w1 w2 wc m).val s = (k, v) := Prod.ext h1.v1 h1.v2
  rw [hval]
  exact ⟨pre, _, h3, (h1.good h2).yields, fun c1 c2 => (h1.moveto_good h2 c1 c2).yields⟩

/-! ### mark / reset -/

/-- The part of the state the operations leave alone. -/
def fixedPart (s : St) : Nat × Nat × Bool × Nat × Int × Int × Int × Int :=
  (s.start, s.stop, s.ign, s.mCurrent, s.mV1, s.mV2, s.mCount, s.mCountgroup)

theorem next_fixed (s : St) : fixedPart (next w1 w2 wc m s) = fixedPart s := by
  simp only [Cluster.next]; split
  · rfl
  · split <;> rfl

theorem movetoSecond_fixed (c2 : Int) (s : St) :
    fixedPart (movetoSecond w1 w2 wc m c2 s) = fixedPart s := by
  simp only [Cluster.movetoSecond]
  by_cases h : s.countgroup = 0
  · simp only [if_pos h]
    rw [← next_fixed (w1 := w1) (w2 := w2) (wc := wc) (m := m) s]
    split <;> rfl
  · simp only [if_neg h]; split <;> rfl

theorem moveto_fixed (c1 c2 : Int) (s : St) :
    fixedPart (moveto w1 w2 wc m c1 c2 s) = fixedPart s := by
  unfold Cluster.moveto
  split
  · rfl
  · by_cases h : c1 > s.v1
    · simp only [if_pos h]
      (repeat' split) <;> first | rfl | (rw [movetoSecond_fixed]; rfl)
    · simp only [if_neg h]
      (repeat' split) <;> first | rfl | (rw [movetoSecond_fixed])

theorem runOps_fixed (ops : List IOp) (s : St) :
    fixedPart (ops.foldl (runIOp (itr w1 w2 wc m) (moveto w1 w2 wc m)) s) = fixedPart s := by
  induction ops generalizing s with
  | nil => rfl
  | cons o ops ih =>
    rw [List.foldl_cons, ih]
    cases o with
    | next => exact next_fixed s
    | seek c1 c2 => exact moveto_fixed c1 c2 s

/-- Resetting gives back exactly the marked state. -/
theorem reset_mark (ops : List IOp) (s : St) :
    reset (ops.foldl (runIOp (itr w1 w2 wc m) (moveto w1 w2 wc m)) (mark s)) = mark s := by
  have h := runOps_fixed (w1 := w1) (w2 := w2) (wc := wc) (m := m) ops (mark s)
  generalize ops.foldl (runIOp (itr w1 w2 wc m) (moveto w1 w2 wc m)) (mark s) = t at h
  simp only [fixedPart, Prod.mk.injEq] at h
  obtain ⟨h1, h2, h3, h4, h5, h6, h7, h8⟩ := h
  simp only [reset, h1, h2, h3, h4, h5, h6, h7, h8]
  simp only [mark]

theorem Good.mark {s out} (h : Good w1 w2 wc m s out) : Good w1 w2 wc m (mark s) out := by
  rcases h with ⟨k, vs, gs, h1, h2, h3, h4, rfl⟩ | ⟨h1, rfl⟩
  · exact .inl ⟨k, vs, gs, ⟨h1.ign, h1.count, h1.vals, h1.grps, h1.stop, h1.key⟩, h2, h3, h4, rfl⟩
  · exact .inr ⟨h1, rfl⟩

theorem Good.resetOK {s0 out} (h0 : Good w1 w2 wc m s0 out) :
    ResetOK (itr w1 w2 wc m) (Cluster.moveto w1 w2 wc m) Cluster.mark reset s0 := by
  rintro s (rfl | hr) rest hy ops
  · rw [reset_mark, hy.unique h0.yields]; exact h0.mark.yields
  · obtain ⟨pre, k, v, vs, gs, h1, h2, h3⟩ := reached_at h0 hr
    rw [reset_mark, hy.unique (h1.good h2).yields]; exact (h1.good h2).mark.yields

theorem Good.seekAfterResetOK {s0 out} (h0 : Good w1 w2 wc m s0 out) :
    SeekAfterResetOK (itr w1 w2 wc m) (Cluster.moveto w1 w2 wc m) Cluster.mark reset s0 := by
  intro s hr rest hy ops c1 c2
  obtain ⟨pre, k, v, vs, gs, h1, h2, h3⟩ := reached_at h0 hr
  have hval : (itr w1 w2 wc m).val s = (k, v) := Prod.ext h1.v1 h1.v2
  rw [reset_mark, hy.unique (h1.good h2).yields, hval]
  have h1' : At w1 w2 wc m (Cluster.mark s) k v vs gs :=
    { ign := h1.ign, count := h1.count, vals := h1.vals, grps := h1.grps, stop := h1.stop,
      key := h1.key, v1 := h1.v1, v2 := h1.v2, prev := h1.prev, ge := h1.ge, cg := h1.cg }
  exact (h1'.moveto_good h2 c1 c2).yields

/-! ### Distinct mode -/

/-- Distinct-mode state in front of the groups `gs`. -/
structure PosD (w1 w2 wc : Width) (m : Mem) (s : St) (gs : List Grp) : Prop where
  ign : s.ign = true
  grps : GAt w1 w2 wc m s.current gs
  stop : s.stop = s.current + gszs w1 w2 wc gs

/-- Distinct-mode state right after `next` returned the group `g`. -/
structure AtD (w1 w2 wc : Width) (m : Mem) (s : St) (g : Grp) (gs : List Grp) : Prop
    extends PosD w1 w2 wc m s gs where
  v1 : s.v1 = g.1
  cg : s.countgroup = g.2.length
  ge : gsz w1 w2 wc g.2.length ≤ s.current
  prev : GAt w1 w2 wc m (s.current - gsz w1 w2 wc g.2.length) (g :: gs)

theorem PosD.next {s g gs} (h : PosD w1 w2 wc m s (g :: gs)) :
    AtD w1 w2 wc m (next w1 w2 wc m s) g gs := by
  have hg := h.grps
  obtain ⟨hr, hc, hv, hne, hg'⟩ := hg
  have hn : Cluster.next w1 w2 wc m s =
      { s with v1 := g.1, count := (g.2.length : Int), countgroup := (g.2.length : Int),
               current := s.current + gsz w1 w2 wc g.2.length } := by
    rw [Cluster.next, if_pos h.ign]
    simp only [hr, hc, Int.toNat_natCast, gsz, Nat.mul_comm w2.size]
    rw [show s.current + w1.size + (wc.size + g.2.length * w2.size)
      = s.current + (w1.size + wc.size + g.2.length * w2.size) by omega]
  rw [hn]
  refine { ign := h.ign, grps := hg', stop := ?_, v1 := rfl, cg := rfl, ge := by simp only; omega, prev := ?_ }
  · have := h.stop; simp only [gszs] at this ⊢; omega
  · simp only [Nat.add_sub_cancel]; exact ⟨hr, hc, hv, hne, hg'⟩

theorem PosD.hasNext {s gs} (h : PosD w1 w2 wc m s gs) : hasNext s = true ↔ gs ≠ [] := by
  simp only [Cluster.hasNext, h.stop, decide_eq_true_eq]
  cases gs with
  | nil => simp [gszs]
  | cons g gs =>
    have := gszs_pos (w1 := w1) (w2 := w2) (wc := wc) g gs
    simp; omega

theorem AtD.val {s g gs} (h : AtD w1 w2 wc m s g gs) :
    (itrD w1 w2 wc m).val s = (g.1, (g.2.length : Int)) := by
  simp only [itrD, getCount, h.ign, if_true, h.v1, h.cg]

theorem PosD.yields {s gs} (h : PosD w1 w2 wc m s gs) : Yields (itrD w1 w2 wc m) s (heads gs) := by
  induction gs generalizing s with
  | nil =>
    rw [heads, List.map_nil, yields_nil]
    have := mt h.hasNext.1 (by simp)
    simpa [itrD] using this
  | cons g gs ih =>
    rw [heads, List.map_cons, yields_cons]
    exact ⟨h.hasNext.2 (by simp), h.next.val, ih h.next.toPosD⟩

theorem AtD.moveto {s g gs} (h : AtD w1 w2 wc m s g gs)
    (hk : (g :: gs).Pairwise (fun g h => g.1 < h.1)) (c1 c2 : Int) :
    ∃ gs', PosD w1 w2 wc m (moveto w1 w2 wc m c1 c2 s) gs' ∧
      heads gs' = (heads (g :: gs)).filter (fun p => decide (c1 ≤ p.1)) ∧
      ∃ pre, g :: gs = pre ++ gs' := by
  have hign := h.ign
  rw [List.pairwise_cons] at hk
  unfold Cluster.moveto
  by_cases hA : Cluster.hasNext s = false ∧ (c1 > s.v1 ∨ (s.ign = false ∧ s.v1 = c1 ∧ c2 > s.v2))
  · rw [if_pos hA]
    obtain ⟨hn, hah⟩ := hA
    have hnil : gs = [] := by
      cases gs with
      | nil => rfl
      | cons x xs => have := h.toPosD.hasNext.2 (by simp); rw [hn] at this; simp at this
    subst hnil
    refine ⟨[], h.toPosD, ?_, [g], by simp⟩
    rw [h.v1, hign] at hah
    simp only [Bool.true_eq_false, false_and, or_false] at hah
    simp only [heads, List.map_cons, List.map_nil]
    rw [List.filter_cons_of_neg (by simp; omega)]; simp
  · rw [if_neg hA]
    simp only [h.v1]
    by_cases hB : c1 > g.1
    · have hcond : ¬ (s.count ≠ 0 ∧ s.ign = false) := by rw [hign]; simp
      simp only [if_pos hB, hign, if_true, if_neg (by omega : ¬ c1 ≤ g.1)]
      simp only [Bool.true_eq_false, and_false, if_false]
      obtain ⟨gs1, gs2, hgs, hlow, hpos, hgat, hterm⟩ := skip_spec h.grps c1 g.1 hB
      rw [h.stop]
      refine ⟨gs2, ⟨rfl, hgat, by simp only; omega⟩, ?_, g :: gs1, by rw [hgs]; rfl⟩
      have h1 : (heads gs1).filter (fun p => decide (c1 ≤ p.1)) = [] := by
        rw [List.filter_eq_nil_iff]; intro p hp
        obtain ⟨x, hx, rfl⟩ := List.mem_map.1 hp
        have := hlow x hx; simp; omega
      have h2 : (heads gs2).filter (fun p => decide (c1 ≤ p.1)) = heads gs2 := by
        rw [List.filter_eq_self]; intro p hp
        obtain ⟨x, hx, rfl⟩ := List.mem_map.1 hp
        cases gs2 with
        | nil => simp at hx
        | cons y ys =>
          rw [hgs, List.pairwise_append, List.pairwise_cons] at hk
          have := hterm.2
          rcases List.mem_cons.1 hx with rfl | hx
          · simpa using this
          · have := hk.2.2.1.1 x hx; simp; omega
      rw [hgs]
      have e : heads (g :: (gs1 ++ gs2)) = (g.1, (g.2.length : Int)) :: (heads gs1 ++ heads gs2) := by
        simp [heads]
      rw [e, List.filter_cons_of_neg (by simp; omega), List.filter_append, h1, h2]; simp
    · simp only [if_neg hB, hign, if_true, h.v1, if_pos (by omega : c1 ≤ g.1), h.cg, Int.toNat_natCast]
      have hge := h.ge
      refine ⟨g :: gs, ⟨rfl, ?_, ?_⟩, ?_, [], rfl⟩
      · simpa [gsz] using h.prev
      · have := h.stop; simp only [gszs]; simp only [gsz] at hge ⊢; omega
      · rw [List.filter_eq_self.2]
        intro p hp
        obtain ⟨x, hx, rfl⟩ := List.mem_map.1 hp
        rcases List.mem_cons.1 hx with rfl | hx
        · simp; omega
        · have := hk.1 x hx; simp; omega

theorem reachedD_at {s0 s gs0} (h0 : PosD w1 w2 wc m s0 gs0)
    (hk : gs0.Pairwise (fun g h => g.1 < h.1))
    (hr : Reached (itrD w1 w2 wc m) (moveto w1 w2 wc m) s0 s) :
    ∃ pre g gs, AtD w1 w2 wc m s g gs ∧ gs0 = pre ++ g :: gs := by
  have hnext : ∀ {s gs}, PosD w1 w2 wc m s gs → Cluster.hasNext s = true →
      ∃ g gs', gs = g :: gs' ∧ AtD w1 w2 wc m (Cluster.next w1 w2 wc m s) g gs' := by
    intro s gs hp hn
    obtain ⟨g, gs', rfl⟩ := List.exists_cons_of_ne_nil (hp.hasNext.1 hn)
    exact ⟨g, gs', rfl, hp.next⟩
  induction hr with
  | first hn =>
    obtain ⟨g, gs', rfl, h⟩ := hnext h0 hn
    exact ⟨[], g, gs', h, rfl⟩
  | next _ hn ih =>
    obtain ⟨pre, g, gs, h1, h2⟩ := ih
    obtain ⟨g', gs', rfl, h⟩ := hnext h1.toPosD hn
    exact ⟨pre ++ [g], g', gs', h, by rw [h2]; simp⟩
  | seek c1 c2 _ hn ih =>
    obtain ⟨pre, g, gs, h1, h2⟩ := ih
    have hk' : (g :: gs).Pairwise (fun g h => g.1 < h.1) := by
      rw [h2] at hk; exact (List.pairwise_append.1 hk).2.1
    obtain ⟨gs', q1, _, pre2, q3⟩ := h1.moveto hk' c1 c2
    obtain ⟨g', gs'', rfl, h⟩ := hnext q1 hn
    exact ⟨pre ++ pre2, g', gs'', h, by rw [h2, q3]; simp⟩

theorem PosD.seekOKD {s0 gs0} (h0 : PosD w1 w2 wc m s0 gs0)
    (hk : gs0.Pairwise (fun g h => g.1 < h.1)) :
    SeekOKD (itrD w1 w2 wc m) (moveto w1 w2 wc m) s0 (heads gs0) := by
  intro s hr
  obtain ⟨pre, g, gs, h1, h2⟩ := reachedD_at h0 hk hr
  have hk' : (g :: gs).Pairwise (fun g h => g.1 < h.1) := by
    rw [h2] at hk; exact (List.pairwise_append.1 hk).2.1
  rw [h1.val]
  refine ⟨heads pre, heads gs, by rw [h2]; simp [heads], h1.toPosD.yields, fun c1 c2 => ?_⟩
  obtain ⟨gs', q1, q2, _⟩ := h1.moveto hk' c1 c2
  have := q1.yields
  rw [q2] at this
  exact this

/-! ### Cardinality -/

theorem cardLoop_spec {p : Nat} {gs : List Grp} (h : GAt w1 w2 wc m p gs) (n sum c : Int) :
    ∃ c', cardLoop w1 w2 wc m p (p + gszs w1 w2 wc gs) n sum c =
      some (n + gs.length, sum + (ungroup gs).length, c') := by
  induction gs generalizing p n sum c with
  | nil => exact ⟨c, by rw [cardLoop, if_neg (by simp [gszs]), if_pos (by simp [gszs])]; simp [ungroup]⟩
  | cons g gs ih =>
    obtain ⟨hr, hc, hv, hne, hg⟩ := h
    have hpos := gszs_pos (w1 := w1) (w2 := w2) (wc := wc) g gs
    rw [cardLoop, if_pos (by omega)]
    simp only [hc, Int.toNat_natCast]
    have e : p + gszs w1 w2 wc (g :: gs) = p + gsz w1 w2 wc g.2.length + gszs w1 w2 wc gs := by
      simp [gszs]; omega
    have e2 : p + w1.size + (wc.size + w2.size * g.2.length) = p + gsz w1 w2 wc g.2.length := by
      simp [gsz, Nat.mul_comm w2.size]; omega
    rw [e, e2]
    obtain ⟨c', hc'⟩ := ih hg (n + 1) (sum + g.2.length) g.2.length
    refine ⟨c', ?_⟩
    rw [hc']
    simp only [List.length_cons, ungroup, List.length_append, List.length_map, Int.natCast_add,
      Option.some.injEq, Prod.mk.injEq, and_true]
    constructor <;> omega

end Trident.Cluster
