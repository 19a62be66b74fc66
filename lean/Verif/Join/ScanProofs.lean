import Verif.Join.Scan
import Verif.Query.KBProofs
/-! # Scans with patterns: proofs -/
namespace Trident.Join

namespace KbItr
variable {o : Obj3} {pos : List Nat} {eq : List (Nat × Nat)}

theorem skip_spec : ∀ {n : Nat} {s : o.σ} {l : List Row3}, Yields o.I s l → l.length < n →
    (((o.I.val s :: l).filter (checkFields pos eq) = [] ∧ (skip o pos eq n s).1 = false) ∨
      ∃ l', (skip o pos eq n s).1 = true ∧ (o.I.val s :: l).filter (checkFields pos eq) = o.I.val (skip o pos eq n s).2 :: l'.filter (checkFields pos eq) ∧
        Yields o.I (skip o pos eq n s).2 l' ∧ l'.length ≤ l.length)
  | 0, _, _, _, h => absurd h (by omega)
  | n + 1, s, l, hy, hl => by
    by_cases hc : checkFields pos eq (o.I.val s) = true
    · right
      refine ⟨l, ?_, ?_, ?_, Nat.le_refl _⟩
      · unfold skip; rw [if_pos hc]
      · unfold skip; rw [if_pos hc, List.filter_cons_of_pos hc]
      · unfold skip; rw [if_pos hc]; exact hy
    · cases hy with
      | done h1 =>
        left
        refine ⟨by rw [List.filter_cons_of_neg hc]; rfl, ?_⟩
        unfold skip
        rw [if_neg hc, h1]
        rfl
      | @step _ l h1 h2 =>
        have hs : skip o pos eq (n + 1) s = skip o pos eq n (o.I.next (o.I.hasNext s).2) := by
          conv => lhs; unfold skip
          rw [if_neg hc, if_pos h1]
        rw [hs, List.filter_cons_of_neg hc]
        rcases skip_spec h2 (by simp at hl; omega) with ⟨g1, g2⟩ | ⟨l', g1, g2, g3, g4⟩
        · exact .inl ⟨g1, g2⟩
        · exact .inr ⟨l', g1, g2, g3, by simp; omega⟩

theorem yields {fuel : Nat} : ∀ {n : Nat} {s : o.σ} {l : List Row3} {b : Bool}, l.length ≤ n → Yields o.I s l → l.length < fuel →
    Yields (itr fuel o pos eq) ⟨s, false, b⟩ ((l.filter (checkFields pos eq)).map fun r => (List.range pos.length).map (elementAt pos r)) := by
  intro n
  induction n with
  | zero =>
    intro s l b hn hy _
    have : l = [] := List.length_eq_zero_iff.1 (by omega)
    subst this
    have h := yields_nil.1 hy
    refine .done ?_
    simp [itr, hasNext, h]
  | succ n ih =>
    intro s l b hn hy hf
    cases hy with
    | done h =>
      refine .done ?_
      simp [itr, hasNext, h]
    | @step _ l h1 h2 =>
      have hf' : l.length < fuel := by simp at hf; omega
      have hh : (itr fuel o pos eq).hasNext ⟨s, false, b⟩ = ((skip o pos eq fuel (o.I.next (o.I.hasNext s).2)).1,
          ⟨(skip o pos eq fuel (o.I.next (o.I.hasNext s).2)).2, true, (skip o pos eq fuel (o.I.next (o.I.hasNext s).2)).1⟩) := by
        simp [itr, hasNext, h1]
      rcases skip_spec (pos := pos) (eq := eq) (n := fuel) h2 hf' with ⟨g1, g2⟩ | ⟨l', g1, g2, g3, g4⟩
      · rw [g1]
        refine .done ?_
        rw [hh]
        exact g2
      · rw [g2, List.map_cons, yields_cons, hh]
        refine ⟨g1, rfl, ?_⟩
        exact ih (by simp at hn; omega) g3 (by omega)

end KbItr

/-- The rows of a query in an order with the fixed positions first. -/
def Answers (get : Nat → Int → Int → Int → QRes) (G : Triple → Prop) : Prop :=
  ∀ (q : Pattern) (d : Order), q.Wf → ((q.at d.positions.2.1).isSome → (q.at d.positions.1).isSome) →
    ((q.at d.positions.2.2).isSome → (q.at d.positions.2.1).isSome) →
    ∃ out o, get d.idx (argOfPos q.s) (argOfPos q.p) (argOfPos q.o) = .itr o ∧ o.Returns out ∧ out.Pairwise Row3.lt ∧
      ∀ r, r ∈ out ↔ ∃ t, G t ∧ q.Matches t ∧ d.row t = r

/-- The triple of a row. -/
def tripleOf (d : Order) (r : Row3) : Triple := ⟨field r ((getInvOrder d.idx).getD 0 3), field r ((getInvOrder d.idx).getD 1 3), field r ((getInvOrder d.idx).getD 2 3)⟩

theorem tripleOf_row (d : Order) (t : Triple) : tripleOf d (d.row t) = t := by cases d <;> rfl

theorem row_tripleOf (d : Order) (r : Row3) : d.row (tripleOf d r) = r := by cases d <;> rfl

/-- The value at a position, by number. -/
def at3 (t : Triple) : Nat → Int
  | 0 => t.s
  | 1 => t.p
  | _ => t.o

theorem field_inv (d : Order) (t : Triple) {j : Nat} (hj : j < 3) : field (d.row t) ((getInvOrder d.idx).getD j 3) = at3 t j := by
  match j, hj with
  | 0, _ => cases d <;> rfl
  | 1, _ => cases d <;> rfl
  | 2, _ => cases d <;> rfl

/-- The pattern of a tuple. -/
def Tup.pattern (t : Tup) : Pattern where
  s := if t.s.isVar then none else some t.s.value
  p := if t.p.isVar then none else some t.p.value
  o := if t.o.isVar then none else some t.o.value

theorem arg_pattern (t : Tup) : (t.arg 0, t.arg 1, t.arg 2) = (argOfPos t.pattern.s, argOfPos t.pattern.p, argOfPos t.pattern.o) := by
  unfold Tup.arg Tup.pattern Tup.get argOfPos
  cases t.s.isVar <;> cases t.p.isVar <;> cases t.o.isVar <;> rfl

/-- The columns that are returned. -/
def Tup.cols (t : Tup) (onlyVars : Bool) : List Nat := if onlyVars then [0, 1, 2].filter fun j => (t.get j).isVar else [0, 1, 2]

theorem cols_lt {t : Tup} {b : Bool} : ∀ j ∈ t.cols b, j < 3 := by
  intro j hj
  unfold Tup.cols at hj
  have : j ∈ [0, 1, 2] := by
    cases b
    · exact hj
    · exact (List.mem_filter.1 hj).1
  simp at this
  omega

theorem inv_length (d : Order) : (getInvOrder d.idx) = [0, 1, 2].map fun j => (getInvOrder d.idx).getD j 3 := by cases d <;> rfl

theorem pos_spec (t : Tup) (b : Bool) (d : Order) : (if b then varsPos t (getInvOrder d.idx) else getInvOrder d.idx) = (t.cols b).map fun j => (getInvOrder d.idx).getD j 3 := by
  unfold Tup.cols varsPos
  cases b
  · exact inv_length d
  · rfl

theorem element_spec {t : Tup} {b : Bool} (d : Order) (x : Triple) {p : Nat} (hp : p < (t.cols b).length) :
    elementAt ((t.cols b).map fun j => (getInvOrder d.idx).getD j 3) (d.row x) p = at3 x ((t.cols b)[p]) := by
  unfold elementAt
  rw [List.getD_eq_getElem?_getD, List.getElem?_map, List.getElem?_eq_getElem hp]
  exact field_inv d x (cols_lt _ (List.getElem_mem _))

/-- All positions of a repeated variable are looked at where they are. -/
def Tup.Aligned (t : Tup) (b : Bool) : Prop := ∀ e ∈ t.repeated, (t.cols b)[e.1]? = some e.1 ∧ (t.cols b)[e.2]? = some e.2

/-- The triple has the constants of the tuple and equal values for equal variables. -/
def Tup.Fits (t : Tup) (x : Triple) : Prop :=
  (∀ j, j < 3 → (t.get j).id = 0 → at3 x j = (t.get j).value) ∧
    ∀ i j, i < 3 → j < 3 → (t.get i).id ≠ 0 → (t.get i).id = (t.get j).id → at3 x i = at3 x j

theorem fits_iff (t : Tup) (x : Triple) : t.Fits x ↔ t.pattern.Matches x ∧ ∀ e ∈ t.repeated, at3 x e.1 = at3 x e.2 := by
  have hv : ∀ j, (t.get j).isVar = false ↔ (t.get j).id = 0 := by
    intro j; unfold Term.isVar; simp
  constructor
  · rintro ⟨h1, h2⟩
    refine ⟨?_, ?_⟩
    · intro y v hv'
      cases y
      · simp only [Pattern.at, Tup.pattern] at hv'
        by_cases hi : t.s.isVar = true
        · rw [if_pos hi] at hv'; simp at hv'
        · rw [if_neg hi] at hv'
          have := h1 0 (by omega) ((hv 0).1 (by simpa [Tup.get] using hi))
          simp only [Option.mem_def, Option.some.injEq] at hv'
          rw [← hv']; exact this
      · simp only [Pattern.at, Tup.pattern] at hv'
        by_cases hi : t.p.isVar = true
        · rw [if_pos hi] at hv'; simp at hv'
        · rw [if_neg hi] at hv'
          have := h1 1 (by omega) ((hv 1).1 (by simpa [Tup.get] using hi))
          simp only [Option.mem_def, Option.some.injEq] at hv'
          rw [← hv']; exact this
      · simp only [Pattern.at, Tup.pattern] at hv'
        by_cases hi : t.o.isVar = true
        · rw [if_pos hi] at hv'; simp at hv'
        · rw [if_neg hi] at hv'
          have := h1 2 (by omega) ((hv 2).1 (by simpa [Tup.get] using hi))
          simp only [Option.mem_def, Option.some.injEq] at hv'
          rw [← hv']; exact this
    · intro e he
      unfold Tup.repeated at he
      obtain ⟨he, hc⟩ := List.mem_filter.1 he
      simp only [Bool.and_eq_true, decide_eq_true_eq] at hc
      have hne : (t.get e.1).id ≠ 0 := by
        intro h0
        rw [(hv _).2 h0] at hc
        simp at hc
      have : e.1 < 3 ∧ e.2 < 3 := by
        simp only [List.mem_cons, List.not_mem_nil, or_false] at he
        rcases he with rfl | rfl | rfl <;> decide
      exact h2 _ _ this.1 this.2 hne hc.2.symm
  · rintro ⟨h1, h2⟩
    refine ⟨?_, ?_⟩
    · intro j hj h0
      have hi := (hv j).2 h0
      match j, hj with
      | 0, _ => exact h1 .s _ (by simp only [Pattern.at, Tup.pattern]; rw [show t.s.isVar = false from hi]; rfl)
      | 1, _ => exact h1 .p _ (by simp only [Pattern.at, Tup.pattern]; rw [show t.p.isVar = false from hi]; rfl)
      | 2, _ => exact h1 .o _ (by simp only [Pattern.at, Tup.pattern]; rw [show t.o.isVar = false from hi]; rfl)
    · intro i j hi hj hne he
      have key : ∀ i j, (i, j) ∈ [(0, 1), (0, 2), (1, 2)] → (t.get i).id ≠ 0 → (t.get i).id = (t.get j).id → at3 x i = at3 x j := by
        intro i j hij hne he
        refine h2 (i, j) (List.mem_filter.2 ⟨hij, ?_⟩)
        have : (t.get i).isVar = true := by
          cases hc : (t.get i).isVar with
          | true => rfl
          | false => exact absurd ((hv i).1 hc) hne
        simp [this, he]
      match i, j, hi, hj with
      | 0, 0, _, _ => rfl
      | 0, 1, _, _ => exact key 0 1 (by simp) hne he
      | 0, 2, _, _ => exact key 0 2 (by simp) hne he
      | 1, 0, _, _ => exact (key 0 1 (by simp) (he ▸ hne) he.symm).symm
      | 1, 1, _, _ => rfl
      | 1, 2, _, _ => exact key 1 2 (by simp) hne he
      | 2, 0, _, _ => exact (key 0 2 (by simp) (he ▸ hne) he.symm).symm
      | 2, 1, _, _ => exact (key 1 2 (by simp) (he ▸ hne) he.symm).symm
      | 2, 2, _, _ => rfl

theorem row_lt_irrefl (a : Row3) : ¬ Row3.lt a a := by
  unfold Row3.lt Pair.lt
  omega

/-- Reading what a query in the order `d` returns. -/
theorem read_spec {G : Triple → Prop} {t : Tup} {b : Bool} (hal : t.Aligned b) {d : Order} {out : List Row3} {o : Obj3} (ho : o.Returns out) (hs : out.Pairwise Row3.lt)
    (hm : ∀ r, r ∈ out ↔ ∃ x, G x ∧ t.pattern.Matches x ∧ d.row x = r) :
    ∃ ts : List Triple, ts.Nodup ∧ (∀ x, x ∈ ts ↔ G x ∧ t.Fits x) ∧ (ts.map d.row).Pairwise Row3.lt ∧ ∀ fuel, out.length < fuel →
      Yields (KbItr.itr fuel o ((t.cols b).map fun j => (getInvOrder d.idx).getD j 3) t.repeated) ⟨o.s, false, false⟩ (ts.map fun x => (t.cols b).map (at3 x)) := by
  have hy := fun fuel (hf : out.length < fuel) => KbItr.yields (pos := (t.cols b).map fun j => (getInvOrder d.idx).getD j 3) (eq := t.repeated) (fuel := fuel) (b := false) (Nat.le_refl _) ho hf
  have hcheck : ∀ x, checkFields ((t.cols b).map fun j => (getInvOrder d.idx).getD j 3) t.repeated (d.row x) = decide (∀ e ∈ t.repeated, at3 x e.1 = at3 x e.2) := by
    intro x
    have he : ∀ e ∈ t.repeated, decide (elementAt ((t.cols b).map fun j => (getInvOrder d.idx).getD j 3) (d.row x) e.1 =
        elementAt ((t.cols b).map fun j => (getInvOrder d.idx).getD j 3) (d.row x) e.2) = decide (at3 x e.1 = at3 x e.2) := by
      intro e he
      obtain ⟨a1, a2⟩ := hal e he
      obtain ⟨b1, c1⟩ := List.getElem?_eq_some_iff.1 a1
      obtain ⟨b2, c2⟩ := List.getElem?_eq_some_iff.1 a2
      rw [element_spec d x b1, element_spec d x b2, c1, c2]
    unfold checkFields
    by_cases hall : ∀ e ∈ t.repeated, at3 x e.1 = at3 x e.2
    · rw [decide_eq_true hall, List.all_eq_true]
      intro e hem
      rw [he e hem, decide_eq_true (hall e hem)]
    · rw [decide_eq_false hall, List.all_eq_false]
      have hex : ∃ e ∈ t.repeated, ¬ at3 x e.1 = at3 x e.2 := by
        exact Classical.byContradiction fun h => hall fun e he => Classical.byContradiction fun h' => h ⟨e, he, h'⟩
      obtain ⟨e, hem, hne⟩ := hex
      refine ⟨e, hem, ?_⟩
      rw [he e hem]
      simpa using hne
  let rs := out.filter (checkFields ((t.cols b).map fun j => (getInvOrder d.idx).getD j 3) t.repeated)
  have hrs : rs.Pairwise Row3.lt := hs.filter _
  have hback : (rs.map (tripleOf d)).map d.row = rs := by
    rw [List.map_map]
    conv => rhs; rw [← List.map_id rs]
    apply List.map_congr_left
    intro r _
    exact row_tripleOf d r
  refine ⟨rs.map (tripleOf d), ?_, ?_, ?_, ?_⟩
  · refine List.pairwise_map.2 (hrs.imp ?_)
    intro a c hac he
    have := congrArg d.row he
    rw [row_tripleOf, row_tripleOf] at this
    rw [this] at hac
    exact row_lt_irrefl _ hac
  · intro x
    rw [fits_iff, List.mem_map]
    constructor
    · rintro ⟨r, hr, rfl⟩
      obtain ⟨h1, h2⟩ := List.mem_filter.1 hr
      obtain ⟨y, hy1, hy2, hy3⟩ := (hm r).1 h1
      rw [← hy3] at h2 ⊢
      rw [tripleOf_row]
      rw [hcheck] at h2
      exact ⟨hy1, hy2, of_decide_eq_true h2⟩
    · rintro ⟨h1, h2, h3⟩
      refine ⟨d.row x, List.mem_filter.2 ⟨(hm _).2 ⟨x, h1, h2, rfl⟩, ?_⟩, tripleOf_row d x⟩
      rw [hcheck]
      exact decide_eq_true h3
  · rw [hback]; exact hrs
  · rw [List.map_map]
    have : (rs.map fun r => (List.range ((t.cols b).map fun j => (getInvOrder d.idx).getD j 3).length).map (elementAt ((t.cols b).map fun j => (getInvOrder d.idx).getD j 3) r)) =
        rs.map ((fun x => (t.cols b).map (at3 x)) ∘ tripleOf d) := by
      apply List.map_congr_left
      intro r _
      rw [Function.comp_apply]
      apply List.ext_getElem
      · simp
      · intro i h1 h2
        have hi : i < (t.cols b).length := by simpa using h1
        rw [List.getElem_map, List.getElem_map, List.getElem_range]
        conv => lhs; rw [← row_tripleOf d r]
        exact element_spec d _ hi
    rw [← this]
    exact hy

/-! ## The order -/

/-- Lexicographic order on rows of columns. -/
def lexLe : List Int → List Int → Prop
  | [], _ => True
  | _ :: _, [] => False
  | a :: l, b :: m => a < b ∨ (a = b ∧ lexLe l m)

theorem lexLe_filter {f h : Nat → Int} {p : Nat → Bool} : ∀ {l : List Nat}, (∀ j ∈ l, p j = false → f j = h j) → lexLe (l.map f) (l.map h) →
    lexLe ((l.filter p).map f) ((l.filter p).map h)
  | [], _, _ => trivial
  | a :: l, he, hl => by
    have ih := lexLe_filter (p := p) (fun j hj => he j (by simp [hj])) (l := l)
    simp only [List.map_cons, lexLe] at hl
    by_cases hp : p a = true
    · rw [List.filter_cons_of_pos hp]
      simp only [List.map_cons, lexLe]
      exact hl.imp id fun h => ⟨h.1, ih h.2⟩
    · rw [List.filter_cons_of_neg hp]
      have := he a (by simp) (by simpa using hp)
      rcases hl with hl | hl
      · omega
      · exact ih hl.2

theorem lexLe_prefix {f h : Nat → Int} : ∀ {l m : List Nat}, l <+: m → lexLe (m.map f) (m.map h) → lexLe (l.map f) (l.map h)
  | [], _, _, _ => trivial
  | a :: l, [], hp, _ => by simp at hp
  | a :: l, b :: m, hp, hl => by
    obtain ⟨hab, hp'⟩ := List.cons_prefix_cons.1 hp
    subst hab
    simp only [List.map_cons, lexLe] at hl ⊢
    exact hl.imp id fun h => ⟨h.1, lexLe_prefix hp' h.2⟩

theorem row_lex (d : Order) {x y : Triple} (h : Row3.lt (d.row x) (d.row y)) : lexLe ((getOrder d.idx).map (at3 x)) ((getOrder d.idx).map (at3 y)) := by
  have key : ∀ a b c a' b' c' : Int, Row3.lt (a, b, c) (a', b', c') → lexLe [a, b, c] [a', b', c'] := by
    intro a b c a' b' c' h
    simp only [Row3.lt, Pair.lt] at h
    simp only [lexLe]
    omega
  cases d <;> exact key _ _ _ _ _ _ h

/-- The sign of an argument. -/
def sg (v : Int) : Int := if v ≥ 0 then 0 else v

theorem getIndex_sg (s p o : Int) : getIndex s p o = getIndex (sg s) (sg p) (sg o) := by
  have h0 : ∀ v : Int, (sg v ≥ 0) = (v ≥ 0) := by intro v; unfold sg; apply propext; constructor <;> intro h <;> split at * <;> omega
  have h2 : ∀ v : Int, (sg v = -2) = (v = -2) := by intro v; unfold sg; apply propext; constructor <;> intro h <;> split at * <;> omega
  have h1 : ∀ v : Int, (sg v = -1) = (v = -1) := by intro v; unfold sg; apply propext; constructor <;> intro h <;> split at * <;> omega
  have hn : ∀ v : Int, (sg v < 0) = (v < 0) := by intro v; unfold sg; apply propext; constructor <;> intro h <;> split at * <;> omega
  unfold getIndex
  simp only [h0, h1, h2, hn, ne_eq]

/-- `sg` and `free` of all three. -/
def map3 (f : Int → Int) (a : Int × Int × Int) : Int × Int × Int := (f a.1, f a.2.1, f a.2.2)

theorem sortArgs_sg : ∀ {fs : List Nat} {v : Int} {a : Int × Int × Int}, v < 0 → map3 sg (sortArgs fs v a) = sortArgs fs v (map3 sg a)
  | [], _, _, _ => rfl
  | f :: fs, v, a, hv => by
    have hs : sg v = v := by unfold sg; rw [if_neg (by omega)]
    unfold sortArgs
    rw [sortArgs_sg (by omega)]
    match f with
    | 0 => simp [map3, hs]
    | 1 => simp [map3, hs]
    | 2 => simp [map3, hs]
    | n + 3 => simp [map3]

/-- The component at a position. -/
def at3' (a : Int × Int × Int) : Nat → Int
  | 0 => a.1
  | 1 => a.2.1
  | _ => a.2.2

theorem sortArgs_free : ∀ {fs : List Nat} {v : Int} {a : Int × Int × Int}, v < 0 → (∀ f ∈ fs, f < 3 ∧ at3' a f < 0) → map3 free (sortArgs fs v a) = map3 free a
  | [], _, _, _, _ => rfl
  | f :: fs, v, a, hv, hf => by
    have hv' : free v = -1 := by unfold free; rw [if_pos hv]
    have h0 : at3' a f < 0 := (hf f (by simp)).2
    have hf3 := (hf f (by simp)).1
    have hrest : ∀ f ∈ fs, f < 3 ∧ at3' a f < 0 := fun f h => hf f (by simp [h])
    unfold sortArgs
    match f, hf3, h0 with
    | 0, _, h0 =>
      rw [sortArgs_free (by omega)]
      · have : free a.1 = -1 := by unfold free; exact if_pos h0
        simp [map3, hv', this]
      · intro g hg
        refine ⟨(hrest g hg).1, ?_⟩
        match g, hrest g hg with
        | 0, _ => exact hv
        | 1, h => exact h.2
        | n + 2, h => exact h.2
    | 1, _, h0 =>
      rw [sortArgs_free (by omega)]
      · have : free a.2.1 = -1 := by unfold free; exact if_pos h0
        simp [map3, hv', this]
      · intro g hg
        refine ⟨(hrest g hg).1, ?_⟩
        match g, hrest g hg with
        | 0, h => exact h.2
        | 1, _ => exact hv
        | n + 2, h => exact h.2
    | 2, _, h0 =>
      rw [sortArgs_free (by omega)]
      · have : free a.2.2 = -1 := by unfold free; exact if_pos h0
        simp [map3, hv', this]
      · intro g hg
        refine ⟨(hrest g hg).1, ?_⟩
        match g, hrest g hg with
        | 0, h => exact h.2
        | 1, h => exact h.2
        | n + 2, h => exact hv

/-- The argument of a free or fixed position. -/
def kind (v : Bool) : Int := if v then -1 else 0

def varAt (vs vp vo : Bool) : Nat → Bool
  | 0 => vs
  | 1 => vp
  | _ => vo

/-- The columns that a scan can sort by: up to two. -/
theorem two_cols {fs : List Nat} (hn : fs.Nodup) (hl : fs.length ≤ 2) (h3 : ∀ f ∈ fs, f < 3) :
    fs ∈ [[], [0], [1], [2], [0, 1], [0, 2], [1, 0], [1, 2], [2, 0], [2, 1]] := by
  match fs, hn, hl, h3 with
  | [], _, _, _ => simp
  | [a], _, _, h3 =>
    have := h3 a (by simp)
    match a, this with
    | 0, _ => simp
    | 1, _ => simp
    | 2, _ => simp
  | [a, b], hn, _, h3 =>
    have ha := h3 a (by simp)
    have hb := h3 b (by simp)
    have hab : a ≠ b := by simp at hn; exact hn
    match a, b, ha, hb, hab with
    | 0, 1, _, _, _ => simp
    | 0, 2, _, _, _ => simp
    | 1, 0, _, _, _ => simp
    | 1, 2, _, _, _ => simp
    | 2, 0, _, _, _ => simp
    | 2, 1, _, _, _ => simp
    | 0, 0, _, _, h => exact absurd rfl h
    | 1, 1, _, _, h => exact absurd rfl h
    | 2, 2, _, _, h => exact absurd rfl h
  | a :: b :: c :: l, _, hl, _ => simp at hl

/-- The index for columns to sort by: fixed positions first, then these columns. -/
theorem index_sorts : ∀ vs vp vo : Bool, ∀ fs ∈ [[], [0], [1], [2], [0, 1], [0, 2], [1, 0], [1, 2], [2, 0], [2, 1], [0, 1, 2], [1, 2, 0], [2, 1, 0]], (∀ f ∈ fs, varAt vs vp vo f = true) →
    (let b := sortArgs fs (-2) (kind vs, kind vp, kind vo)
     let l := getOrder (getIndex b.1 b.2.1 b.2.2)
     getIndex b.1 b.2.1 b.2.2 < 6 ∧ (varAt vs vp vo (l.getD 0 0) = true → varAt vs vp vo (l.getD 1 0) = true) ∧ (varAt vs vp vo (l.getD 1 0) = true → varAt vs vp vo (l.getD 2 0) = true) ∧
       fs <+: l.filter (varAt vs vp vo)) := by
  decide

theorem exists_order {i : Nat} (h : i < 6) : ∃ d : Order, d.idx = i := by
  match i, h with
  | 0, _ => exact ⟨.spo, rfl⟩
  | 1, _ => exact ⟨.ops, rfl⟩
  | 2, _ => exact ⟨.pos, rfl⟩
  | 3, _ => exact ⟨.sop, rfl⟩
  | 4, _ => exact ⟨.osp, rfl⟩
  | 5, _ => exact ⟨.pso, rfl⟩

/-- The constants are terms. -/
def Tup.Wf (t : Tup) : Prop := ∀ j, j < 3 → (t.get j).id = 0 → 0 ≤ (t.get j).value

/-- The columns to sort by: variables, each once, at most two, or all three in the order of one of the first three indices. -/
def SortOk (t : Tup) (fs : List Nat) : Prop :=
  fs.Nodup ∧ (∀ f ∈ fs, f < 3 ∧ (t.get f).isVar = true) ∧ (fs.length ≤ 2 ∨ fs ∈ [[0, 1, 2], [1, 2, 0], [2, 1, 0]])

theorem sg_arg {t : Tup} (hw : t.Wf) {j : Nat} (hj : j < 3) : sg (t.arg j) = kind (t.get j).isVar := by
  unfold Tup.arg kind
  cases hv : (t.get j).isVar with
  | true => rfl
  | false =>
    have := hw j hj (by unfold Term.isVar at hv; simpa using hv)
    simp only [Bool.false_eq_true, if_false]
    unfold sg
    exact if_pos this

theorem free_arg {t : Tup} (hw : t.Wf) {j : Nat} (hj : j < 3) : free (t.arg j) = t.arg j := by
  unfold Tup.arg
  cases hv : (t.get j).isVar with
  | true => rfl
  | false =>
    have := hw j hj (by unfold Term.isVar at hv; simpa using hv)
    simp only [Bool.false_eq_true, if_false]
    unfold free
    exact if_neg (by omega)

theorem varAt_get (t : Tup) (j : Nat) : varAt (t.get 0).isVar (t.get 1).isVar (t.get 2).isVar j = (t.get j).isVar := by
  match j with
  | 0 => rfl
  | 1 => rfl
  | n + 2 => rfl

theorem at_isSome (t : Tup) (d : Order) : (t.pattern.at d.positions.1).isSome = !(t.get ((getOrder d.idx).getD 0 0)).isVar ∧
    (t.pattern.at d.positions.2.1).isSome = !(t.get ((getOrder d.idx).getD 1 0)).isVar ∧ (t.pattern.at d.positions.2.2).isSome = !(t.get ((getOrder d.idx).getD 2 0)).isVar := by
  have h : ∀ x : Term, (if x.isVar then none else some x.value).isSome = !x.isVar := by intro x; cases x.isVar <;> rfl
  cases d <;> exact ⟨h _, h _, h _⟩

theorem pattern_wf {t : Tup} (hw : t.Wf) : t.pattern.Wf := by
  have h : ∀ j, j < 3 → ∀ v ∈ (if (t.get j).isVar then none else some (t.get j).value), 0 ≤ v := by
    intro j hj v hv
    cases hi : (t.get j).isVar with
    | true => rw [hi] at hv; simp at hv
    | false =>
      rw [hi] at hv
      simp only [Bool.false_eq_true, if_false, Option.mem_def, Option.some.injEq] at hv
      rw [← hv]
      exact hw j hj (by unfold Term.isVar at hi; simpa using hi)
  intro x v hv
  cases x
  · exact h 0 (by omega) v hv
  · exact h 1 (by omega) v hv
  · exact h 2 (by omega) v hv

theorem init_spec {get : Nat → Int → Int → Int → QRes} {G : Triple → Prop} (ha : Answers get G) {t : Tup} (hw : t.Wf) {b : Bool} (hal : t.Aligned b)
    {sort : Option (List Nat)} (hs : ∀ fs ∈ sort, SortOk t fs) :
    ∃ ts : List Triple, ts.Nodup ∧ (∀ x, x ∈ ts ↔ G x ∧ t.Fits x) ∧ (∀ fs ∈ sort, ts.Pairwise fun x y => lexLe (fs.map (at3 x)) (fs.map (at3 y))) ∧
      (init get t sort b).Returns (ts.map fun x => (t.cols b).map (at3 x)) := by
  -- the list of columns
  have hfs : SortOk t (sort.getD []) := by
    cases sort with
    | none => exact ⟨List.nodup_nil, by simp, by simp⟩
    | some fs => exact hs fs rfl
  obtain ⟨n1, n2, n3⟩ := hfs
  have hmem : sort.getD [] ∈ [[], [0], [1], [2], [0, 1], [0, 2], [1, 0], [1, 2], [2, 0], [2, 1], [0, 1, 2], [1, 2, 0], [2, 1, 0]] := by
    rcases n3 with n3 | n3
    · have := two_cols n1 n3 fun f hf => (n2 f hf).1
      simp only [List.mem_cons, List.not_mem_nil, or_false] at this ⊢
      rcases this with h | h | h | h | h | h | h | h | h | h <;> rw [h] <;> simp
    · simp only [List.mem_cons, List.not_mem_nil, or_false] at n3 ⊢
      rcases n3 with h | h | h <;> rw [h] <;> simp
  have hidx := index_sorts (t.get 0).isVar (t.get 1).isVar (t.get 2).isVar _ hmem (fun f hf => by rw [varAt_get]; exact (n2 f hf).2)
  -- the arguments
  have hb : sort.elim ((t.arg 0, t.arg 1, t.arg 2) : Int × Int × Int) (fun fs => sortArgs fs (-2) (t.arg 0, t.arg 1, t.arg 2)) = sortArgs (sort.getD []) (-2) (t.arg 0, t.arg 1, t.arg 2) := by
    cases sort <;> rfl
  have hi : getIndex (sortArgs (sort.getD []) (-2) (t.arg 0, t.arg 1, t.arg 2)).1 (sortArgs (sort.getD []) (-2) (t.arg 0, t.arg 1, t.arg 2)).2.1
      (sortArgs (sort.getD []) (-2) (t.arg 0, t.arg 1, t.arg 2)).2.2 =
      getIndex (sortArgs (sort.getD []) (-2) (kind (t.get 0).isVar, kind (t.get 1).isVar, kind (t.get 2).isVar)).1
        (sortArgs (sort.getD []) (-2) (kind (t.get 0).isVar, kind (t.get 1).isVar, kind (t.get 2).isVar)).2.1
        (sortArgs (sort.getD []) (-2) (kind (t.get 0).isVar, kind (t.get 1).isVar, kind (t.get 2).isVar)).2.2 := by
    rw [getIndex_sg]
    have h := sortArgs_sg (fs := sort.getD []) (v := -2) (a := (t.arg 0, t.arg 1, t.arg 2)) (by omega)
    have h' : map3 sg (t.arg 0, t.arg 1, t.arg 2) = (kind (t.get 0).isVar, kind (t.get 1).isVar, kind (t.get 2).isVar) := by
      simp only [map3, sg_arg hw (show 0 < 3 by omega), sg_arg hw (show 1 < 3 by omega), sg_arg hw (show 2 < 3 by omega)]
    rw [h'] at h
    rw [← h]
    rfl
  have hq : sort.elim (sortArgs (sort.getD []) (-2) (t.arg 0, t.arg 1, t.arg 2)) (fun _ => map3 free (sortArgs (sort.getD []) (-2) (t.arg 0, t.arg 1, t.arg 2))) = (t.arg 0, t.arg 1, t.arg 2) := by
    cases sort with
    | none => rfl
    | some fs =>
      simp only [Option.getD_some, Option.elim_some]
      rw [sortArgs_free (by omega)]
      · simp only [map3, free_arg hw (show 0 < 3 by omega), free_arg hw (show 1 < 3 by omega), free_arg hw (show 2 < 3 by omega)]
      · intro f hf
        obtain ⟨h3, hv⟩ := n2 f hf
        refine ⟨h3, ?_⟩
        match f, h3, hv with
        | 0, _, hv => simp [at3', Tup.arg, hv]
        | 1, _, hv => simp [at3', Tup.arg, hv]
        | 2, _, hv => simp [at3', Tup.arg, hv]
  simp only at hidx
  rw [← hi] at hidx
  obtain ⟨i1, i2, i3, i4⟩ := hidx
  obtain ⟨d, hd⟩ := exists_order i1
  rw [← hd] at i2 i3 i4
  simp only [varAt_get] at i2 i3 i4
  have ⟨s1, s2, s3⟩ := at_isSome t d
  obtain ⟨out, o, o1, o2, o3, o4⟩ := ha t.pattern d (pattern_wf hw) (by
      rw [s1, s2]
      intro h
      cases h0 : (t.get ((getOrder d.idx).getD 0 0)).isVar with
      | false => rfl
      | true => rw [i2 h0] at h; simp at h) (by
      rw [s2, s3]
      intro h
      cases h0 : (t.get ((getOrder d.idx).getD 1 0)).isVar with
      | false => rfl
      | true => rw [i3 h0] at h; simp at h)
  obtain ⟨ts, t1, t2, t3, t4⟩ := read_spec hal o2 o3 o4
  refine ⟨ts, t1, t2, ?_, o, _, _, ?_, out.length + 1, fun fuel hf => t4 fuel (by omega)⟩
  · intro fs hfs
    have hfs' : sort.getD [] = fs := by rw [hfs]; rfl
    rw [hfs'] at i4
    have hp : ts.Pairwise fun x y => Row3.lt (d.row x) (d.row y) := List.pairwise_map.1 t3
    have hfit : ∀ x ∈ ts, t.Fits x := fun x hx => ((t2 x).1 hx).2
    refine (List.pairwise_iff_forall_sublist.2 fun {x y} hxy => ?_)
    have hlt := List.pairwise_iff_forall_sublist.1 hp hxy
    have hx := hfit x (hxy.subset (by simp))
    have hy := hfit y (hxy.subset (by simp))
    refine lexLe_prefix i4 (lexLe_filter ?_ (row_lex d hlt))
    intro j hj hv
    have hv : (t.get j).isVar = false := by rw [← varAt_get]; exact hv
    have h3 : j < 3 := by
      cases d <;> simp [getOrder, Order.idx] at hj <;> omega
    have h0 : (t.get j).id = 0 := by unfold Term.isVar at hv; simpa using hv
    rw [hx.1 j h3 h0, hy.1 j h3 h0]
  · unfold init
    simp only [hb]
    have hpat := arg_pattern t
    simp only [Prod.mk.injEq] at hpat
    have hq' : sort.elim (sortArgs (sort.getD []) (-2) (t.arg 0, t.arg 1, t.arg 2)) (fun _ => (free (sortArgs (sort.getD []) (-2) (t.arg 0, t.arg 1, t.arg 2)).1, free (sortArgs (sort.getD []) (-2) (t.arg 0, t.arg 1, t.arg 2)).2.1,
          free (sortArgs (sort.getD []) (-2) (t.arg 0, t.arg 1, t.arg 2)).2.2)) = (t.arg 0, t.arg 1, t.arg 2) := hq
    rw [hq']
    simp only
    rw [← hd, hpat.1, hpat.2.1, hpat.2.2, o1]
    simp only
    rw [pos_spec, if_pos]
    rw [List.all_eq_true]
    intro e he
    obtain ⟨a1, a2⟩ := hal e he
    obtain ⟨b1, -⟩ := List.getElem?_eq_some_iff.1 a1
    obtain ⟨b2, -⟩ := List.getElem?_eq_some_iff.1 a2
    simp [b1, b2]

end Trident.Join
