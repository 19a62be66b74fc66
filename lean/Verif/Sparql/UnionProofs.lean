import Verif.Sparql.Union
import Verif.Sparql.AlgebraSpec
/-! # Lemmas about UNION -/
namespace Trident.Sparql.Union

theorem mem_of_lookup {l : List (Nat × Nat)} {v x : Nat} (h : reg l v = some x) : (v, x) ∈ l := by
  unfold reg at h
  induction l with
  | nil => cases h
  | cons a l ih =>
    rw [List.lookup_cons] at h
    split at h
    · rename_i e
      have := beq_iff_eq.1 e
      cases h
      rw [this]; exact List.mem_cons_self
    · exact List.mem_cons_of_mem _ (ih h)

theorem lookup_of_mem {l : List (Nat × Nat)} {v x : Nat} (h : (v, x) ∈ l) : ∃ y, reg l v = some y := by
  unfold reg
  induction l with
  | nil => cases h
  | cons a l ih =>
    rw [List.lookup_cons]
    split
    · exact ⟨_, rfl⟩
    · rename_i e
      rcases List.mem_cons.1 h with h | h
      · rw [← h] at e; simp at e
      · exact ih h

theorem clear_apply (l : List Nat) (R : Regs) (x : Nat) : clear l R x = if x ∈ l then unbound else R x := by
  unfold clear
  induction l generalizing R with
  | nil => simp
  | cons r l ih =>
    rw [List.foldl_cons, ih]
    simp only [set, List.mem_cons]
    split
    · rename_i h; simp [h]
    · rename_i h
      by_cases hx : x = r
      · simp [hx]
      · simp [hx, h]

theorem applyMap_other (l : List (Nat × Nat)) (R : Regs) (x : Nat) (h : ∀ m ∈ l, m.2 ≠ x) : applyMap l R x = R x := by
  unfold applyMap
  induction l generalizing R with
  | nil => rfl
  | cons m l ih =>
    rw [List.foldl_cons, ih _ fun m hm => h m (by simp [hm])]
    unfold set
    rw [if_neg fun e => h m (by simp) e.symm]

theorem applyMap_mem (l : List (Nat × Nat)) (R : Regs) (hft : ∀ m ∈ l, ∀ m' ∈ l, m'.1 ≠ m.2) (hinj : ∀ m ∈ l, ∀ m' ∈ l, m.2 = m'.2 → m.1 = m'.1)
    (m : Nat × Nat) (hm : m ∈ l) : applyMap l R m.2 = R m.1 := by
  induction l generalizing R m with
  | nil => cases hm
  | cons a l ih =>
    have e : applyMap (a :: l) R = applyMap l (set R a.2 (R a.1)) := rfl
    rw [e]
    by_cases hml : m ∈ l
    · rw [ih _ (fun m h m' h' => hft m (by simp [h]) m' (by simp [h'])) (fun m h m' h' => hinj m (by simp [h]) m' (by simp [h'])) _ hml]
      unfold set
      rw [if_neg (hft a (by simp) m hm)]
    · have hma : m = a := by rcases List.mem_cons.1 hm with h | h; exact h; exact absurd h hml
      subst hma
      by_cases hx : ∃ m' ∈ l, m'.2 = m.2
      · obtain ⟨m', h1, h2⟩ := hx
        rw [← h2, ih _ (fun m h m' h' => hft m (by simp [h]) m' (by simp [h'])) (fun m h m' h' => hinj m (by simp [h]) m' (by simp [h'])) _ h1]
        unfold set
        have := hinj m (by simp) m' (by simp [h1]) h2.symm
        rw [if_neg (by rw [h2]; exact hft m (by simp) m' (by simp [h1])), this]
      · rw [applyMap_other _ _ _ fun m' h1 h2 => hx ⟨m', h1, h2⟩]
        unfold set
        rw [if_pos rfl]

/-- What the registers of the parts are assumed to be: no two parts share a register, the registers of the variables of a part are its own, every variable has one
register, and two variables have two registers. -/
structure Separate (parts : List Part) : Prop where
  disjoint : parts.Pairwise fun p q => ∀ x, p.own x = true → q.own x = false
  owned : ∀ p ∈ parts, ∀ b ∈ p.binds, p.own b.2 = true
  once : ∀ p ∈ parts, ∀ b ∈ p.binds, ∀ b' ∈ p.binds, b.1 = b'.1 ↔ b.2 = b'.2

variable {parts : List Part}

theorem Separate.cases (h : Separate parts) {p q : Part} (hp : p ∈ parts) (hq : q ∈ parts) : p = q ∨ ∀ x, p.own x = true → q.own x = false := by
  have key : ∀ l : List Part, (l.Pairwise fun p q => ∀ x, p.own x = true → q.own x = false) → p ∈ l → q ∈ l →
      p = q ∨ ∀ x, p.own x = true → q.own x = false := by
    intro l hl hp hq
    induction hl with
    | nil => cases hp
    | cons h _ ih =>
      rcases List.mem_cons.1 hp with rfl | hp' <;> rcases List.mem_cons.1 hq with rfl | hq'
      · exact .inl rfl
      · exact .inr (h _ hq')
      · refine .inr fun z hz => ?_
        cases hx : q.own z with
        | false => rfl
        | true => rw [h _ hp' z hx] at hz; cases hz
      · exact ih hp' hq'
  exact key parts h.disjoint hp hq

theorem Separate.origin {v x : Nat} (hr : reg (bindings parts) v = some x) : ∃ q ∈ parts, (v, x) ∈ q.binds := by
  have := mem_of_lookup hr
  obtain ⟨q, a, b⟩ := List.mem_flatMap.1 this
  exact ⟨q, a, b⟩

theorem Separate.exists {p : Part} (hp : p ∈ parts) {v r : Nat} (hb : (v, r) ∈ p.binds) : ∃ x, reg (bindings parts) v = some x :=
  lookup_of_mem (List.mem_flatMap.2 ⟨p, hp, hb⟩)

theorem Separate.other (h : Separate parts) {p : Part} (hp : p ∈ parts) {v r to : Nat} (hb : (v, r) ∈ p.binds) (hr : reg (bindings parts) v = some to) :
    to = r ∨ p.own to = false := by
  obtain ⟨q, hq, hm⟩ := Separate.origin hr
  rcases h.cases hq hp with e | e
  · subst e
    exact .inl ((h.once _ hq _ hm _ hb).1 rfl)
  · exact .inr (e _ (h.owned q hq _ hm))

theorem Separate.foreign (h : Separate parts) {p : Part} (hp : p ∈ parts) {v to : Nat} (hn : reg p.binds v = none) (hr : reg (bindings parts) v = some to) :
    p.own to = false := by
  obtain ⟨q, hq, hm⟩ := Separate.origin hr
  rcases h.cases hq hp with e | e
  · subst e
    obtain ⟨y, hy⟩ := lookup_of_mem hm
    rw [hn] at hy; cases hy
  · exact e _ (h.owned q hq _ hm)

theorem Separate.inj (h : Separate parts) {v v' x : Nat} (hr : reg (bindings parts) v = some x) (hr' : reg (bindings parts) v' = some x) : v = v' := by
  obtain ⟨q, hq, hm⟩ := Separate.origin hr
  obtain ⟨q', hq', hm'⟩ := Separate.origin hr'
  rcases h.cases hq hq' with e | e
  · subst e
    exact (h.once _ hq _ hm _ hm').2 rfl
  · have := e _ (h.owned q hq _ hm)
    have h2 := h.owned q' hq' _ hm'
    rw [this] at h2; cases h2

theorem mem_mappings {all : List (Nat × Nat)} {p : Part} {m : Nat × Nat} :
    m ∈ mappings all p ↔ ∃ v, (v, m.1) ∈ p.binds ∧ reg all v = some m.2 ∧ m.2 ≠ m.1 := by
  unfold mappings
  rw [List.mem_filterMap]
  constructor
  · rintro ⟨⟨v, r⟩, hb, e⟩
    split at e
    · rename_i to ht
      split at e
      · cases e
      · rename_i hne
        cases e
        exact ⟨v, hb, ht, hne⟩
    · cases e
  · rintro ⟨v, hb, hr, hne⟩
    refine ⟨(v, m.1), hb, ?_⟩
    simp only [hr]
    rw [if_neg hne]

theorem mem_initializations {all : List (Nat × Nat)} {p : Part} {x : Nat} :
    x ∈ initializations all p ↔ ∃ v, reg p.binds v = none ∧ reg all v = some x := by
  unfold initializations
  rw [List.mem_filterMap]
  constructor
  · rintro ⟨⟨v, r⟩, hb, e⟩
    split at e
    · rename_i hn
      exact ⟨v, by simpa using hn, e⟩
    · cases e
  · rintro ⟨v, hn, hr⟩
    exact ⟨_, mem_of_lookup hr, by simp [hn, hr]⟩

/-- The value of a variable in a row of a part. -/
def value (p : Part) (f : Regs) (v : Nat) : Option Nat := (reg p.binds v).map f

/-- The registers of the variables that the part does not have are unbound. -/
def Cleared (all : List (Nat × Nat)) (p : Part) (R : Regs) : Prop := ∀ v x, reg p.binds v = none → reg all v = some x → R x = unbound

theorem row_ok (h : Separate parts) {p : Part} (hp : p ∈ parts) {R f : Regs} (hc : Cleared (bindings parts) p R) (hf : ∀ x, p.own x = true → R x = f x) :
    Cleared (bindings parts) p (applyMap (mappings (bindings parts) p) R) ∧
      ∀ v x, reg (bindings parts) v = some x → applyMap (mappings (bindings parts) p) R x = (value p f v).getD unbound := by
  have hto : ∀ m ∈ mappings (bindings parts) p, p.own m.2 = false := by
    intro m hm
    obtain ⟨v, hb, hr, hne⟩ := mem_mappings.1 hm
    exact (h.other hp hb hr).resolve_left hne
  have hfrom : ∀ m ∈ mappings (bindings parts) p, p.own m.1 = true := by
    intro m hm
    obtain ⟨v, hb, hr, hne⟩ := mem_mappings.1 hm
    exact h.owned p hp _ hb
  have hft : ∀ m ∈ mappings (bindings parts) p, ∀ m' ∈ mappings (bindings parts) p, m'.1 ≠ m.2 := by
    intro m hm m' hm' e
    have h1 := hfrom m' hm'
    rw [e, hto m hm] at h1; cases h1
  have hinj : ∀ m ∈ mappings (bindings parts) p, ∀ m' ∈ mappings (bindings parts) p, m.2 = m'.2 → m.1 = m'.1 := by
    intro m hm m' hm' e
    obtain ⟨v, hb, hr, _⟩ := mem_mappings.1 hm
    obtain ⟨v', hb', hr', _⟩ := mem_mappings.1 hm'
    rw [← e] at hr'
    exact (h.once p hp _ hb _ hb').1 (h.inj hr hr')
  have hvals : ∀ v x, reg (bindings parts) v = some x → applyMap (mappings (bindings parts) p) R x = (value p f v).getD unbound := by
    intro v x hr
    unfold value
    match hv : reg p.binds v with
    | none =>
      show _ = unbound
      rw [applyMap_other _ _ _ ?_, hc v x hv hr]
      intro m hm e
      obtain ⟨v', hb', hr', _⟩ := mem_mappings.1 hm
      rw [e] at hr'
      rw [h.inj hr' hr] at hb'
      obtain ⟨y, hy⟩ := lookup_of_mem hb'
      rw [hv] at hy; cases hy
    | some r =>
      show _ = f r
      have hb := mem_of_lookup hv
      by_cases hx : x = r
      · subst hx
        rw [applyMap_other _ _ _ ?_, hf x (h.owned p hp _ hb)]
        intro m hm e
        have := hto m hm
        rw [e, h.owned p hp _ hb] at this; cases this
      · have hm : (r, x) ∈ mappings (bindings parts) p := mem_mappings.2 ⟨v, hb, hr, hx⟩
        rw [applyMap_mem _ R hft hinj _ hm, hf r (h.owned p hp _ hb)]
  refine ⟨?_, hvals⟩
  intro v x hn hr
  rw [hvals v x hr]
  unfold value
  rw [hn]; rfl

theorem write_own {p : Part} {f R : Regs} {x : Nat} (h : p.own x = true) : write p f R x = f x := by simp [write, h]

/-- The rows of a union, seen through the registers of the variables. -/
def seen (all : List (Nat × Nat)) (vars : List Nat) (r : Nat × Regs) : Row :=
  (r.1, vars.map fun v => match reg all v with
    | some x => r.2 x
    | none => unbound)

theorem seen_eq {p : Part} (hp : p ∈ parts) {vars : List Nat} {c : Nat} {R f : Regs}
    (hv : ∀ v x, reg (bindings parts) v = some x → R x = (value p f v).getD unbound) :
    seen (bindings parts) vars (c, R) = Spec.row unbound vars (c, value p f) := by
  unfold seen Spec.row
  congr 1
  apply List.map_congr_left
  intro v _
  match hr : reg (bindings parts) v with
  | some x => exact hv v x hr
  | none =>
    have : reg p.binds v = none := by
      match hb : reg p.binds v with
      | none => rfl
      | some r =>
        obtain ⟨x, hx⟩ := Separate.exists hp (mem_of_lookup hb)
        rw [hr] at hx; cases hx
    simp [value, this]

theorem nextRows_ok (h : Separate parts) {p : Part} (hp : p ∈ parts) (vars : List Nat) (rs : List (Nat × Regs)) {R : Regs} (hc : Cleared (bindings parts) p R) :
    (nextRows (bindings parts) p rs R).1.map (seen (bindings parts) vars) = rs.map fun r => Spec.row unbound vars (r.1, value p r.2) := by
  induction rs generalizing R with
  | nil => rfl
  | cons r rs ih =>
    have hw : Cleared (bindings parts) p (write p r.2 R) := by
      intro v x hn hr
      simp only [write, h.foreign hp hn hr]
      exact hc v x hn hr
    obtain ⟨h1, h2⟩ := row_ok h hp (f := r.2) hw fun x hx => write_own hx
    simp only [nextRows, List.map_cons]
    rw [ih h1, seen_eq hp h2]

theorem fromPart_ok (h : Separate parts) (vars : List Nat) (ps : List Part) (hps : ∀ p ∈ ps, p ∈ parts) (R : Regs) :
    (fromPart (bindings parts) ps R).map (seen (bindings parts) vars) =
      ps.flatMap fun p => p.rows.map fun r => Spec.row unbound vars (r.1, value p r.2) := by
  induction ps generalizing R with
  | nil => rfl
  | cons p ps ih =>
    have hp := hps p (by simp)
    rw [fromPart, List.flatMap_cons]
    match hr : p.rows with
    | [] =>
      simp only [List.map_nil, List.nil_append]
      exact ih (fun q hq => hps q (by simp [hq])) R
    | r :: rs =>
      have hw : Cleared (bindings parts) p (clear (initializations (bindings parts) p) (write p r.2 R)) := by
        intro v x hn hr
        rw [clear_apply, if_pos (mem_initializations.2 ⟨v, hn, hr⟩)]
      obtain ⟨h1, h2⟩ := row_ok h hp (f := r.2) hw (by
        intro x hx
        rw [clear_apply, if_neg, write_own hx]
        intro hm
        obtain ⟨v, hn, hr⟩ := mem_initializations.1 hm
        rw [h.foreign hp hn hr] at hx; cases hx)
      simp only [List.map_cons, List.map_append, List.cons_append]
      rw [ih (fun q hq => hps q (by simp [hq])), nextRows_ok h hp vars rs h1, seen_eq hp h2]

end Trident.Sparql.Union
