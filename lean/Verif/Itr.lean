/-!
# What an iterator returns

Common specification vocabulary for all iterators
(/repo/include/trident/iterators/pairitr.h:30-118): the C++ client loop is
`while (itr->hasNext()) { itr->next(); use(getValue1(), getValue2()); }`.
-/
namespace Trident

/-- An iterator: `hasNext` may change the state (it does for merged iterators),
`next` advances, `val` is what the getters return after `next`. -/
structure Itr (σ α : Type) where
  hasNext : σ → Bool × σ
  next : σ → σ
  val : σ → α

/-- `Yields I s l`: running the client loop from state `s` returns exactly the
values `l`, in that order, and then `hasNext` is false. -/
inductive Yields {σ α : Type} (I : Itr σ α) : σ → List α → Prop
  | done {s} : (I.hasNext s).1 = false → Yields I s []
  | step {s l} : (I.hasNext s).1 = true → Yields I (I.next (I.hasNext s).2) l →
      Yields I s (I.val (I.next (I.hasNext s).2) :: l)

/-- The result of the client loop is determined by the state. -/
theorem Yields.unique {σ α} {I : Itr σ α} {s l l'} (h : Yields I s l) (h' : Yields I s l') :
    l = l' := by
  induction h generalizing l' with
  | done h => cases h' with
    | done _ => rfl
    | step h2 _ => simp [h] at h2
  | step h _ ih => cases h' with
    | done h2 => simp [h] at h2
    | step _ h3 => rw [ih h3]

theorem yields_nil {σ α} {I : Itr σ α} {s} : Yields I s [] ↔ (I.hasNext s).1 = false := by
  constructor
  · intro h; cases h; assumption
  · exact .done

theorem yields_cons {σ α} {I : Itr σ α} {s x l} :
    Yields I s (x :: l) ↔ (I.hasNext s).1 = true ∧ I.val (I.next (I.hasNext s).2) = x ∧
      Yields I (I.next (I.hasNext s).2) l := by
  constructor
  · intro h; cases h with
    | step h1 h2 => exact ⟨h1, rfl, h2⟩
  · rintro ⟨h1, rfl, h3⟩; exact .step h1 h3

/-- A pair of column values. -/
abbrev Pair := Int × Int

/-- Strict lexicographic order on pairs: the order of the stored tables. -/
def Pair.lt (a b : Pair) : Prop := a.1 < b.1 ∨ (a.1 = b.1 ∧ a.2 < b.2)

/-- Non-strict lexicographic order on pairs. -/
def Pair.le (a b : Pair) : Prop := a.1 < b.1 ∨ (a.1 = b.1 ∧ a.2 ≤ b.2)

instance (a b : Pair) : Decidable (Pair.lt a b) := by unfold Pair.lt; infer_instance
instance (a b : Pair) : Decidable (Pair.le a b) := by unfold Pair.le; infer_instance

/-- Sorted (duplicates allowed). -/
def Sorted (l : List Pair) : Prop := l.Pairwise Pair.le

/-- Sorted without duplicates. -/
def SortedS (l : List Pair) : Prop := l.Pairwise Pair.lt

instance (l : List Pair) : Decidable (Sorted l) := by unfold Sorted; infer_instance
instance (l : List Pair) : Decidable (SortedS l) := by unfold SortedS; infer_instance

/-- Ids are natural numbers; getters return them as (signed) integers. -/
def toI (l : List (Nat × Nat)) : List Pair := l.map fun p => ((p.1 : Int), (p.2 : Int))

@[simp] theorem toI_length (l) : (toI l).length = l.length := by simp [toI]

theorem SortedS.sorted {l} (h : SortedS l) : Sorted l :=
  h.imp fun h => by unfold Pair.lt at h; unfold Pair.le; omega

/-- States a client can be in right after `next`, when it mixes reading with forward
seeks (`moveto` is only called after `next`, and followed by `hasNext`/`next`). -/
inductive Reached {σ : Type} (I : Itr σ Pair) (moveto : Int → Int → σ → σ) (s0 : σ) : σ → Prop
  | first : (I.hasNext s0).1 = true → Reached I moveto s0 (I.next (I.hasNext s0).2)
  | next {s} : Reached I moveto s0 s → (I.hasNext s).1 = true →
      Reached I moveto s0 (I.next (I.hasNext s).2)
  | seek {s} (c1 c2 : Int) : Reached I moveto s0 s → (I.hasNext (moveto c1 c2 s)).1 = true →
      Reached I moveto s0 (I.next (I.hasNext (moveto c1 c2 s)).2)

/-- Seeking is correct for an iterator over `ps`: at any reachable state, with current
element `e` and remaining elements `rest`, seeking to `(c1,c2)` makes the iterator
return exactly the elements of `e :: rest` that are `>= (c1,c2)`. -/
def SeekOK {σ : Type} (I : Itr σ Pair) (moveto : Int → Int → σ → σ) (s0 : σ) (ps : List Pair) :
    Prop :=
  ∀ s, Reached I moveto s0 s → ∃ pre rest, ps = pre ++ I.val s :: rest ∧ Yields I s rest ∧
    ∀ c1 c2, Yields I (moveto c1 c2 s)
      ((I.val s :: rest).filter fun p => decide (Pair.le (c1, c2) p))

/-- As `Reached`, but the client only makes seeks for which `P` holds. -/
inductive ReachedOn {σ : Type} (I : Itr σ Pair) (moveto : Int → Int → σ → σ)
    (P : σ → Int → Int → Prop) (s0 : σ) : σ → Prop
  | first : (I.hasNext s0).1 = true → ReachedOn I moveto P s0 (I.next (I.hasNext s0).2)
  | next {s} : ReachedOn I moveto P s0 s → (I.hasNext s).1 = true →
      ReachedOn I moveto P s0 (I.next (I.hasNext s).2)
  | seek {s} (c1 c2 : Int) : ReachedOn I moveto P s0 s → P s c1 c2 →
      (I.hasNext (moveto c1 c2 s)).1 = true →
      ReachedOn I moveto P s0 (I.next (I.hasNext (moveto c1 c2 s)).2)

/-- As `SeekOK`, for clients that only make seeks for which `P` holds. -/
def SeekOKOn {σ : Type} (I : Itr σ Pair) (moveto : Int → Int → σ → σ) (P : σ → Int → Int → Prop)
    (s0 : σ) (ps : List Pair) : Prop :=
  ∀ s, ReachedOn I moveto P s0 s → ∃ pre rest, ps = pre ++ I.val s :: rest ∧ Yields I s rest ∧
    ∀ c1 c2, P s c1 c2 → Yields I (moveto c1 c2 s)
      ((I.val s :: rest).filter fun p => decide (Pair.le (c1, c2) p))

theorem Reached.on {σ I mv s0 s} (h : @Reached σ I mv s0 s) :
    ReachedOn I mv (fun _ _ _ => True) s0 s := by
  induction h with
  | first h => exact .first h
  | next _ h ih => exact .next ih h
  | seek c1 c2 _ h ih => exact .seek c1 c2 ih trivial h

/-- Seeking is correct in distinct mode: `ds` lists the distinct first values with their
counts; a seek looks at the first value only. -/
def SeekOKD {σ : Type} (I : Itr σ Pair) (moveto : Int → Int → σ → σ) (s0 : σ) (ds : List Pair) :
    Prop :=
  ∀ s, Reached I moveto s0 s → ∃ pre rest, ds = pre ++ I.val s :: rest ∧ Yields I s rest ∧
    ∀ c1 c2, Yields I (moveto c1 c2 s) ((I.val s :: rest).filter fun p => decide (c1 ≤ p.1))

/-- A client operation on an iterator. -/
inductive IOp | next | seek (c1 c2 : Int)

/-- Effect of one client operation; `next` includes the `hasNext` call before it. -/
def runIOp {σ : Type} (I : Itr σ Pair) (moveto : Int → Int → σ → σ) (s : σ) : IOp → σ
  | .next => I.next (I.hasNext s).2
  | .seek c1 c2 => moveto c1 c2 s

/-- mark/reset is correct: mark a fresh or reachable state from which `rest` would be
returned, do anything, reset: the iterator returns exactly `rest`. -/
def ResetOK {σ : Type} (I : Itr σ Pair) (moveto : Int → Int → σ → σ) (mark reset : σ → σ)
    (s0 : σ) : Prop :=
  ∀ s, (s = s0 ∨ Reached I moveto s0 s) → ∀ rest, Yields I s rest → ∀ ops : List IOp,
    Yields I (reset (ops.foldl (runIOp I moveto) (mark s))) rest

/-- Seeking after a reset is correct: mark a reachable state, do anything, reset; a seek then
returns the elements from the marked one on that are `>=` the target. -/
def SeekAfterResetOK {σ : Type} (I : Itr σ Pair) (moveto : Int → Int → σ → σ) (mark reset : σ → σ)
    (s0 : σ) : Prop :=
  ∀ s, Reached I moveto s0 s → ∀ rest, Yields I s rest → ∀ (ops : List IOp) (c1 c2 : Int),
    Yields I (moveto c1 c2 (reset (ops.foldl (runIOp I moveto) (mark s))))
      ((I.val s :: rest).filter fun p => decide (Pair.le (c1, c2) p))

/-- `out` lists the distinct first values of `ps` in increasing order, each with the
number of pairs that have it. -/
def IsDistinct (ps : List Pair) (out : List (Int × Int)) : Prop :=
  (out.map (·.1)).Pairwise (· < ·) ∧ (∀ v, v ∈ out.map (·.1) ↔ v ∈ ps.map (·.1)) ∧
  ∀ q ∈ out, q.2 = ((ps.filter fun p => p.1 = q.1).length : Int)

/-! ## List helpers -/

/-- Runs of equal first values with their lengths (computes `IsDistinct` on sorted lists). -/
def runs : List Pair → List (Int × Int)
  | [] => []
  | p :: l => match runs l with
    | (v, c) :: r => if v = p.1 then (v, c + 1) :: r else (p.1, 1) :: (v, c) :: r
    | [] => [(p.1, 1)]

theorem runs_head {p l} : ∃ c r, runs (p :: l) = (p.1, c) :: r := by
  simp only [runs]; split
  · split
    · rename_i h; exact ⟨_, _, by rw [h]⟩
    · exact ⟨_, _, rfl⟩
  · exact ⟨_, _, rfl⟩

theorem runs_block (v : Int) (b rest : List Pair) (hb : b ≠ []) (hv : ∀ p ∈ b, p.1 = v)
    (hr : ∀ p r, rest = p :: r → p.1 ≠ v) : runs (b ++ rest) = (v, (b.length : Int)) :: runs rest := by
  induction b with
  | nil => simp at hb
  | cons p b ih =>
    have hp := hv p (by simp)
    cases b with
    | nil =>
      simp only [List.singleton_append, runs]
      cases rest with
      | nil => simp [runs, hp]
      | cons q r =>
        obtain ⟨c, r', e⟩ := @runs_head q r
        rw [e]; simp [hp, hr q r rfl]
    | cons q b =>
      have := ih (by simp) (fun p hp => hv p (by simp [hp]))
      rw [List.cons_append, runs, this]
      simp [hp]

theorem isDistinct_runs {ps : List Pair} (h : ps.Pairwise fun a b => a.1 ≤ b.1) :
    IsDistinct ps (runs ps) := by
  induction ps with
  | nil => simp [IsDistinct, runs]
  | cons p l ih =>
    rw [List.pairwise_cons] at h
    obtain ⟨h1, h2, h3⟩ := ih h.2
    cases l with
    | nil => simp [IsDistinct, runs]
    | cons q l =>
      obtain ⟨c, r, e⟩ := @runs_head q l
      have hpq := h.1 q (by simp)
      simp only [runs] at e ⊢
      rw [show runs (q :: l) = _ from rfl] at h1 h2 h3
      simp only [runs] at h1 h2 h3
      rw [e] at h1 h2 h3 ⊢
      by_cases hq : q.1 = p.1
      · simp only [hq, if_true]
        refine ⟨by simpa [hq] using h1, ?_, ?_⟩
        · intro v; have := h2 v; simp [hq] at this ⊢; exact this
        · intro x hx
          rcases List.mem_cons.1 hx with rfl | hx
          · have := h3 (q.1, c) (by simp)
            simp only at this ⊢
            rw [List.filter_cons_of_pos (by simp)]
            rw [hq] at this
            simp [this]
          · have hne : x.1 ≠ p.1 := by
              rw [List.map_cons, List.pairwise_cons] at h1
              have := h1.1 x.1 (List.mem_map.2 ⟨x, hx, rfl⟩)
              simp only at this; omega
            rw [List.filter_cons_of_neg (by simp; exact fun h => hne h.symm)]
            exact h3 x (by simp [hx])
      · simp only [if_neg hq]
        have hlt : ∀ x ∈ (q.1, c) :: r, p.1 < x.1 := by
          intro x hx
          rcases List.mem_cons.1 hx with rfl | hx
          · simp only; omega
          · rw [List.map_cons, List.pairwise_cons] at h1
            have := h1.1 x.1 (List.mem_map.2 ⟨x, hx, rfl⟩)
            simp only at this; omega
        refine ⟨?_, ?_, ?_⟩
        · rw [List.map_cons, List.pairwise_cons]
          refine ⟨?_, h1⟩
          intro v hv
          obtain ⟨x, hx, rfl⟩ := List.mem_map.1 hv
          exact hlt x hx
        · intro v; have := h2 v; rw [List.map_cons, List.mem_cons, this]; simp
        · intro x hx
          rcases List.mem_cons.1 hx with rfl | hx
          · simp only
            rw [List.filter_cons_of_pos (by simp)]
            have : (q :: l).filter (fun y => decide (y.1 = p.1)) = [] := by
              rw [List.filter_eq_nil_iff]
              intro y hy
              have h4 := (h2 y.1).2 (List.mem_map.2 ⟨y, hy, rfl⟩)
              obtain ⟨z, hz, hz2⟩ := List.mem_map.1 h4
              have := hlt z hz
              simp; omega
            rw [this]; simp
          · have := hlt x hx
            rw [List.filter_cons_of_neg (by simp; omega)]
            exact h3 x hx

theorem IsDistinct.unique {ps out out'} (h : IsDistinct ps out) (h' : IsDistinct ps out') :
    out = out' := by
  obtain ⟨a1, a2, a3⟩ := h
  obtain ⟨b1, b2, b3⟩ := h'
  have mem : ∀ x, x ∈ out ↔ x ∈ out' := by
    intro x
    constructor
    · intro hx
      have := (b2 x.1).2 ((a2 x.1).1 (List.mem_map.2 ⟨x, hx, rfl⟩))
      obtain ⟨y, hy, e⟩ := List.mem_map.1 this
      have h1 := a3 x hx; have h2 := b3 y hy
      rw [e, ← h1] at h2
      rwa [show x = y from Prod.ext e.symm h2.symm]
    · intro hx
      have := (a2 x.1).2 ((b2 x.1).1 (List.mem_map.2 ⟨x, hx, rfl⟩))
      obtain ⟨y, hy, e⟩ := List.mem_map.1 this
      have h1 := b3 x hx; have h2 := a3 y hy
      rw [e, ← h1] at h2
      rwa [show x = y from Prod.ext e.symm h2.symm]
  rw [List.pairwise_map] at a1 b1
  have nd1 : out.Nodup := a1.imp (fun h e => by subst e; omega)
  have nd2 : out'.Nodup := b1.imp (fun h e => by subst e; omega)
  have hp : out.Perm out' := (List.perm_ext_iff_of_nodup nd1 nd2).2 mem
  exact hp.eq_of_pairwise (le := fun a b => a.1 < b.1) (fun a b _ _ h1 h2 => by omega) a1 b1


theorem filter_eq_slice {α} (p : α → Bool) (l : List α) (i j : Nat) (hij : i ≤ j)
    (hj : j ≤ l.length)
    (h1 : ∀ k (hk : k < l.length), k < i → p l[k] = false)
    (h2 : ∀ k (hk : k < l.length), i ≤ k → k < j → p l[k] = true)
    (h3 : ∀ k (hk : k < l.length), j ≤ k → p l[k] = false) :
    l.filter p = (l.take j).drop i := by
  have e : l = l.take i ++ ((l.take j).drop i ++ l.drop j) := by
    rw [← List.append_assoc]
    have : l.take i = (l.take j).take i := by rw [List.take_take]; congr 1; omega
    rw [this, List.take_append_drop, List.take_append_drop]
  rw [congrArg (List.filter p) e]
  rw [List.filter_append, List.filter_append]
  have f1 : (l.take i).filter p = [] := by
    rw [List.filter_eq_nil_iff]
    intro x hx
    obtain ⟨k, hk, rfl⟩ := List.getElem_of_mem hx
    simp only [List.length_take] at hk
    rw [List.getElem_take, h1 k (by omega) (by omega)]; simp
  have f3 : (l.drop j).filter p = [] := by
    rw [List.filter_eq_nil_iff]
    intro x hx
    obtain ⟨k, hk, rfl⟩ := List.getElem_of_mem hx
    simp only [List.length_drop] at hk
    rw [List.getElem_drop, h3 (j + k) (by omega) (by omega)]; simp
  have f2 : ((l.take j).drop i).filter p = (l.take j).drop i := by
    rw [List.filter_eq_self]
    intro x hx
    obtain ⟨k, hk, rfl⟩ := List.getElem_of_mem hx
    simp only [List.length_drop, List.length_take] at hk
    rw [List.getElem_drop, List.getElem_take, h2 (i + k) (by omega) (by omega) (by omega)]
  rw [f1, f2, f3]; simp

/-- In a sorted list the elements above a bound form a suffix. -/
theorem Sorted.filter_ge_suffix {l : List Pair} (h : Sorted l) (c : Pair) :
    ∃ pre, l = pre ++ l.filter (fun p => decide (Pair.le c p)) := by
  induction l with
  | nil => exact ⟨[], rfl⟩
  | cons p l ih =>
    have hp := List.pairwise_cons.1 h
    by_cases hc : Pair.le c p
    · refine ⟨[], ?_⟩
      rw [List.nil_append, List.filter_eq_self.2]
      intro q hq
      rcases List.mem_cons.1 hq with rfl | hq
      · simpa using hc
      · have := hp.1 q hq
        rw [decide_eq_true_eq]; unfold Pair.le at *; omega
    · obtain ⟨pre, e⟩ := ih hp.2
      refine ⟨p :: pre, ?_⟩
      rw [List.filter_cons_of_neg (by simpa using hc), List.cons_append, ← e]

theorem filter_ge_suffixD {l : List Pair} (h : l.Pairwise fun a b => a.1 < b.1) (c : Int) :
    ∃ pre, l = pre ++ l.filter (fun p => decide (c ≤ p.1)) := by
  induction l with
  | nil => exact ⟨[], rfl⟩
  | cons p l ih =>
    have hp := List.pairwise_cons.1 h
    by_cases hc : c ≤ p.1
    · refine ⟨[], ?_⟩
      rw [List.nil_append, List.filter_eq_self.2]
      intro q hq
      rcases List.mem_cons.1 hq with rfl | hq
      · simpa using hc
      · have := hp.1 q hq
        rw [decide_eq_true_eq]; omega
    · obtain ⟨pre, e⟩ := ih hp.2
      refine ⟨p :: pre, ?_⟩
      rw [List.filter_cons_of_neg (by simpa using hc), List.cons_append, ← e]

/-! ## Proving an iterator correct -/

/-- A device to prove seeking correct: an invariant `Good` ("will return `out`") and an
invariant `At` ("just returned `e`, will return `rest`") that the operations preserve. -/
structure DriverK {σ α : Type} (I : Itr σ α) (moveto : Int → Int → σ → σ)
    (P : σ → Int → Int → Prop) (keep : Int → Int → α → Bool) where
  Good : σ → List α → Prop
  At : σ → α → List α → Prop
  more : ∀ {s out}, Good s out → (I.hasNext s).1 = true →
    ∃ e rest, out = e :: rest ∧ At (I.next (I.hasNext s).2) e rest
  done : ∀ {s out}, Good s out → (I.hasNext s).1 = false → out = []
  val : ∀ {s e rest}, At s e rest → I.val s = e
  good : ∀ {s e rest}, At s e rest → Good s rest
  suffix : ∀ {s e rest}, At s e rest → ∀ c1 c2, P s c1 c2 →
    ∃ pre, e :: rest = pre ++ (e :: rest).filter (keep c1 c2)
  seek : ∀ {s e rest}, At s e rest → ∀ c1 c2, P s c1 c2 →
    Good (moveto c1 c2 s) ((e :: rest).filter (keep c1 c2))

theorem DriverK.yields {σ α} {I : Itr σ α} {mv P k} (D : DriverK I mv P k) {s out} (h : D.Good s out) : Yields I s out := by
  induction out generalizing s with
  | nil =>
    rw [yields_nil]
    cases hn : (I.hasNext s).1 with
    | false => rfl
    | true => obtain ⟨e, rest, h1, _⟩ := D.more h hn; simp at h1
  | cons e rest ih =>
    cases hn : (I.hasNext s).1 with
    | false => have := D.done h hn; simp at this
    | true =>
      obtain ⟨e', rest', h1, h2⟩ := D.more h hn
      simp only [List.cons.injEq] at h1
      obtain ⟨rfl, rfl⟩ := h1
      rw [yields_cons]
      exact ⟨hn, D.val h2, ih (D.good h2)⟩

theorem DriverK.reached {σ} {I : Itr σ Pair} {mv P k} (D : DriverK I mv P k) {s0 s out} (h0 : D.Good s0 out)
    (hr : ReachedOn I mv P s0 s) : ∃ pre e rest, D.At s e rest ∧ out = pre ++ e :: rest := by
  induction hr with
  | first hn =>
    obtain ⟨e, rest, h1, h2⟩ := D.more h0 hn
    exact ⟨[], e, rest, h2, h1⟩
  | next _ hn ih =>
    obtain ⟨pre, e, rest, h1, h2⟩ := ih
    obtain ⟨e', rest', h3, h4⟩ := D.more (D.good h1) hn
    exact ⟨pre ++ [e], e', rest', h4, by rw [h2, h3]; simp⟩
  | seek c1 c2 _ hP hn ih =>
    obtain ⟨pre, e, rest, h1, h2⟩ := ih
    obtain ⟨pre2, he⟩ := D.suffix h1 c1 c2 hP
    obtain ⟨e', rest', h3, h4⟩ := D.more (D.seek h1 c1 c2 hP) hn
    rw [h3] at he
    exact ⟨pre ++ pre2, e', rest', h4, by rw [h2, he]; simp⟩

/-- `DriverK` for the lexicographic order. -/
abbrev Driver {σ : Type} (I : Itr σ Pair) (moveto : Int → Int → σ → σ) :=
  DriverK I moveto (fun _ _ _ => True) fun c1 c2 p => decide (Pair.le (c1, c2) p)

/-- `DriverK` for distinct mode. -/
abbrev DriverD {σ : Type} (I : Itr σ Pair) (moveto : Int → Int → σ → σ) :=
  DriverK I moveto (fun _ _ _ => True) fun c1 _ p => decide (c1 ≤ p.1)

theorem Driver.seekOK {σ I mv} (D : @Driver σ I mv) {s0 out} (h0 : D.Good s0 out) :
    SeekOK I mv s0 out := by
  intro s hr
  obtain ⟨pre, e, rest, h1, h2⟩ := D.reached h0 hr.on
  rw [D.val h1]
  exact ⟨pre, rest, h2, D.yields (D.good h1), fun c1 c2 => D.yields (D.seek h1 c1 c2 trivial)⟩

theorem DriverD.seekOKD {σ I mv} (D : @DriverD σ I mv) {s0 out} (h0 : D.Good s0 out) :
    SeekOKD I mv s0 out := by
  intro s hr
  obtain ⟨pre, e, rest, h1, h2⟩ := D.reached h0 hr.on
  rw [D.val h1]
  exact ⟨pre, rest, h2, D.yields (D.good h1), fun c1 c2 => D.yields (D.seek h1 c1 c2 trivial)⟩

theorem DriverK.seekOKOn {σ I mv P}
    (D : @DriverK σ _ I mv P fun c1 c2 p => decide (Pair.le (c1, c2) p)) {s0 out} (h0 : D.Good s0 out) :
    SeekOKOn I mv P s0 out := by
  intro s hr
  obtain ⟨pre, e, rest, h1, h2⟩ := D.reached h0 hr
  rw [D.val h1]
  exact ⟨pre, rest, h2, D.yields (D.good h1), fun c1 c2 hP => D.yields (D.seek h1 c1 c2 hP)⟩

theorem Sorted.get_le {l : List Pair} (h : Sorted l) {i j : Nat} (hj : j < l.length) (hij : i < j) :
    Pair.le l[i] l[j] := List.pairwise_iff_getElem.mp h i j (by omega) hj hij

theorem SortedS.get_lt {l : List Pair} (h : SortedS l) {i j : Nat} (hj : j < l.length) (hij : i < j) :
    Pair.lt l[i] l[j] := List.pairwise_iff_getElem.mp h i j (by omega) hj hij

theorem Sorted.fst_le {l : List Pair} (h : Sorted l) {i j : Nat} (hj : j < l.length) (hij : i ≤ j) :
    l[i].1 ≤ l[j].1 := by
  rcases Nat.lt_or_eq_of_le hij with h1 | h1
  · have := h.get_le hj h1; unfold Pair.le at this; omega
  · subst h1; exact Int.le_refl _

theorem toI_nonneg {l : List (Nat × Nat)} : ∀ p ∈ toI l, 0 ≤ p.2 := by
  intro p hp; simp only [toI, List.mem_map] at hp; obtain ⟨q, -, rfl⟩ := hp; simp

theorem toI_nonneg1 {l : List (Nat × Nat)} {p : Pair} (hp : p ∈ toI l) : 0 ≤ p.1 := by
  simp only [toI, List.mem_map] at hp; obtain ⟨q, -, rfl⟩ := hp; simp

theorem SortedS.nodup {l : List Pair} (h : SortedS l) : l.Nodup :=
  h.imp fun h e => by subst e; unfold Pair.lt at h; omega

theorem filter_eq_singleton {l : List Pair} {q : Pair} (h : SortedS l) :
    l.filter (fun p => p = q) = if q ∈ l then [q] else [] := by
  induction l with
  | nil => simp
  | cons p l ih =>
    have hn := h.nodup
    rw [List.nodup_cons] at hn
    have hl : SortedS l := (List.pairwise_cons.1 h).2
    rw [List.filter_cons, ih hl]
    by_cases hpq : p = q
    · subst hpq; simp [hn.1]
    · simp only [hpq, decide_false, Bool.false_eq_true, if_false, List.mem_cons]
      simp only [show (q = p) = False by simp; exact fun h => hpq h.symm, false_or]

end Trident
