import Verif.Sparql.ElemProofs
import Verif.Sparql.ExprSpec
/-!
# Proofs about the parser of conditions
-/
namespace Trident.Sparql.Parse

open Lex Spec

variable {pre : List (Text × Text)}

theorem Reads.adjust {a b : St} {v : List Text} {ts us : List Tok} (h : Reads { a with toks := ts } b v) : Reads a { b with toks := us } v :=
  ⟨h.ext, h.inv, h.declared, h.only, h.nodup⟩

theorem Reads.start {a b : St} {v : List Text} {ts : List Tok} (h : Reads { a with toks := ts } b v) : Reads a b v := ⟨h.ext, h.inv, h.declared, h.only, h.nodup⟩

/-- The level on which a token continues an expression. -/
def rank (t : Tok) : Option Nat :=
  match t.kind with
  | .or => some 0
  | .and => some 1
  | .equal | .notEqual | .less | .lessOrEqual | .greater | .greaterOrEqual => some 2
  | .identifier => if isKeyword t kIn || isKeyword t kNot then some 2 else none
  | .plus | .minus => some 3
  | .mul | .div => some 4
  | .at | .type | .lparen => some 5
  | _ => none

/-- What follows does not continue an expression of the level. -/
def Stop (l : Nat) (rest : List Tok) : Prop := ∀ t, rest.head? = some t → ∀ r, rank t = some r → r < l

theorem Stop.mono {l m : Nat} {rest : List Tok} (h : Stop l rest) (k : l ≤ m) : Stop m rest := fun t ht r hr => Nat.lt_of_lt_of_le (h t ht r hr) k

theorem stop_cons {l r : Nat} {t : Tok} {rest : List Tok} (h : rank t = some r) (k : r < l) : Stop l (t :: rest) := by
  intro u hu q hq
  cases hu
  rw [h] at hq
  cases hq
  exact k

theorem stop_none {l : Nat} {t : Tok} {rest : List Tok} (h : rank t = none) : Stop l (t :: rest) := by
  intro u hu q hq
  cases hu
  rw [h] at hq
  cases hq

/-- What a parser does with the tokens of a condition. -/
def CondResult (pre : List (Text × Text)) (r : Except Err (Cond × St)) (s : St) (c : SCond) (rest : List Tok) : Prop :=
  ∃ c' s', r = .ok (c', s') ∧ s'.toks = rest ∧ Reads s s' c.vars ∧ ∀ N, Ext s'.names N → c' = c.meaning pre (num N)

/-- The parser `p` reads the condition from its tokens. -/
def Reader (pre : List (Text × Text)) (p : Parser) (l : Nat) (c : SCond) (ts : List Tok) : Prop :=
  ∀ s rest, s.toks = ts ++ rest → Stop l rest → CondResult pre (p s) s c rest

/-- A parser of operators reads the condition and goes on with its loop. -/
def Chain (pre : List (Text × Text)) (ops : Kind → Option BinOp) (sub : Parser) (l : Nat) (c : SCond) (ts : List Tok) : Prop :=
  ∀ s rest, s.toks = ts ++ rest → Stop (l + 1) rest → ∃ k c' s', leftAssoc ops sub s = loop ops sub k c' s' ∧ rest.length < k ∧ s'.toks = rest
    ∧ Reads s s' c.vars ∧ ∀ N, Ext s'.names N → c' = c.meaning pre (num N)

theorem chain_up {ops : Kind → Option BinOp} {sub : Parser} {l : Nat} {c : SCond} {ts : List Tok} (h : Reader pre sub (l + 1) c ts) :
    Chain pre ops sub l c ts := by
  intro s rest hs hr
  obtain ⟨c', s', h1, h2, h3, h4⟩ := h s rest hs hr
  refine ⟨s'.toks.length + 1, c', s', ?_, by rw [h2]; omega, h2, h3, h4⟩
  unfold leftAssoc
  rw [h1]; rfl

theorem chain_step {ops : Kind → Option BinOp} {sub : Parser} {l : Nat} {a b : SCond} {s t : List Tok} {o : Tok} {op : BinOp}
    (ha : Chain pre ops sub l a s) (hb : Reader pre sub (l + 1) b t) (ho : ops o.kind = some op) (hk : rank o = some l) :
    Chain pre ops sub l (.bin op a b) (s ++ o :: t) := by
  intro s0 rest hs hr
  obtain ⟨k, a', s1, h1, h2, h3, h4, h5⟩ := ha s0 (o :: (t ++ rest)) (by rw [hs]; simp) (stop_cons hk (Nat.lt_succ_self _))
  obtain ⟨b', s2, g1, g2, g3, g4⟩ := hb { s1 with toks := t ++ rest } rest rfl hr
  cases k with
  | zero => simp at h2
  | succ k =>
    refine ⟨k, .bin op a' b', s2, ?_, ?_, g2, h4.trans g3.start, ?_⟩
    · rw [h1, loop, pop_cons h3]
      simp only [ho, g1]
      rfl
    · simp at h2; omega
    · intro N hN
      rw [SCond.meaning, ← h5 N (fun x i hx => hN x i (g3.ext x i hx)), ← g4 N hN]

theorem chain_reader {ops : Kind → Option BinOp} {sub : Parser} {l : Nat} {c : SCond} {ts : List Tok} (hops : ∀ t op, ops t.kind = some op → rank t = some l)
    (heof : ops .eof = none) (h : Chain pre ops sub l c ts) : Reader pre (leftAssoc ops sub) l c ts := by
  intro s rest hs hr
  obtain ⟨k, c', s', h1, h2, h3, h4, h5⟩ := h s rest hs (hr.mono (Nat.le_succ _))
  refine ⟨c', s', ?_, h3, h4, h5⟩
  rw [h1]
  cases k with
  | zero => omega
  | succ k =>
    rw [loop]
    have : ops (pop s').1.kind = none := by
      match rest, hr with
      | [], _ => simp only [pop, h3]; exact heof
      | t :: r, hr =>
        rw [pop_cons h3]
        cases ho : ops t.kind with
        | none => rfl
        | some op => exact absurd (hr t rfl l (hops t op ho)) (Nat.lt_irrefl _)
    rw [this]

theorem orOp_rank (t : Tok) (op : BinOp) (h : orOp t.kind = some op) : rank t = some 0 := by
  cases t with | mk k r => cases k <;> simp [orOp] at h <;> rfl
theorem andOp_rank (t : Tok) (op : BinOp) (h : andOp t.kind = some op) : rank t = some 1 := by
  cases t with | mk k r => cases k <;> simp [andOp] at h <;> rfl
theorem addOp_rank (t : Tok) (op : BinOp) (h : addOp t.kind = some op) : rank t = some 3 := by
  cases t with | mk k r => cases k <;> simp [addOp] at h <;> rfl
theorem mulOp_rank (t : Tok) (op : BinOp) (h : mulOp t.kind = some op) : rank t = some 4 := by
  cases t with | mk k r => cases k <;> simp [mulOp] at h <;> rfl
theorem relOp_rank (t : Tok) (op : BinOp) (h : relOp t.kind = some op) : rank t = some 2 := by
  cases t with | mk k r => cases k <;> simp [relOp] at h <;> rfl

/-- The end of the loop of comparisons. -/
theorem relLoop_stop {sub : Parser} {k : Nat} {c : Cond} {s : St} (h : Stop 2 s.toks) : relLoop pre sub (k + 1) c s = .ok (c, s) := by
  have key : relOp (pop s).1.kind = none ∧ ¬ ((pop s).1.kind = .identifier ∧ isKeyword (pop s).1 kIn = true)
      ∧ ¬ ((pop s).1.kind = .identifier ∧ isKeyword (pop s).1 kNot = true) := by
    match hs : s.toks, h with
    | [], _ => simp [pop, hs, relOp]
    | t :: r, h =>
      rw [pop_cons hs]
      refine ⟨?_, ?_, ?_⟩
      · cases ho : relOp t.kind with
        | none => rfl
        | some op => exact absurd (h t rfl 2 (relOp_rank t op ho)) (Nat.lt_irrefl _)
      · intro ⟨h1, h2⟩
        have : rank t = some 2 := by unfold rank; simp only at h1 h2; rw [h1]; simp [h2]
        exact absurd (h t rfl 2 this) (Nat.lt_irrefl _)
      · intro ⟨h1, h2⟩
        have : rank t = some 2 := by unfold rank; simp only at h1 h2; rw [h1]; simp [h2]
        exact absurd (h t rfl 2 this) (Nat.lt_irrefl _)
  rw [relLoop]
  simp only [key.1]
  rw [if_neg key.2.1, if_neg key.2.2]

theorem rel_up {sub : Parser} {c : SCond} {ts : List Tok} (h : Reader pre sub 3 c ts) : Reader pre (relational pre sub) 2 c ts := by
  intro s rest hs hr
  obtain ⟨c', s', h1, h2, h3, h4⟩ := h s rest hs (hr.mono (by decide))
  refine ⟨c', s', ?_, h2, h3, h4⟩
  unfold relational
  rw [h1]
  show relLoop pre sub _ c' s' = _
  exact relLoop_stop (h2 ▸ hr)

theorem rel_step {sub : Parser} {a b : SCond} {s t : List Tok} {o : Tok} {op : BinOp} (ha : Reader pre sub 3 a s) (hb : Reader pre sub 3 b t)
    (ho : relOp o.kind = some op) : Reader pre (relational pre sub) 2 (.bin op a b) (s ++ o :: t) := by
  intro s0 rest hs hr
  obtain ⟨a', s1, h1, h2, h3, h4⟩ := ha s0 (o :: (t ++ rest)) (by rw [hs]; simp) (stop_cons (relOp_rank o op ho) (by decide))
  obtain ⟨b', s2, g1, g2, g3, g4⟩ := hb { s1 with toks := t ++ rest } rest rfl (hr.mono (by decide))
  refine ⟨.bin op a' b', s2, ?_, g2, h3.trans g3.start, ?_⟩
  · unfold relational
    rw [h1]
    show relLoop pre sub (s1.toks.length + 1) a' s1 = _
    rw [relLoop, pop_cons h2]
    simp only [ho, g1]
    show relLoop pre sub _ (.bin op a' b') s2 = _
    rw [show s1.toks.length = s1.toks.length - 1 + 1 by rw [h2]; simp]
    exact relLoop_stop (g2 ▸ hr)
  · intro N hN
    rw [SCond.meaning, ← h4 N (fun x i hx => hN x i (g3.ext x i hx)), ← g4 N hN]

theorem unary_up {p : Parser} {c : SCond} {t : Tok} {ts : List Tok} (h : Reader pre p 5 c (t :: ts)) (ht : unOp t.kind = none) :
    Reader pre (unary p) 5 c (t :: ts) := by
  intro s rest hs hr
  have := h s rest hs hr
  unfold unary
  rw [pop_cons hs]
  simp only [ht]
  exact this

theorem unary_step {p : Parser} {c : SCond} {o : Tok} {op : UnOp} {ts : List Tok} (h : Reader pre p 5 c ts) (ho : unOp o.kind = some op) :
    Reader pre (unary p) 5 (.un op c) (o :: ts) := by
  intro s rest hs hr
  obtain ⟨c', s', h1, h2, h3, h4⟩ := h { s with toks := ts ++ rest } rest rfl hr
  refine ⟨.un op c', s', ?_, h2, h3.start, ?_⟩
  · unfold unary
    rw [pop_cons hs]
    simp only [ho]
    show Except.map _ (p { s with toks := ts ++ rest }) = _
    rw [h1]
    rfl
  · intro N hN; rw [SCond.meaning, h4 N hN]

theorem expect_ok {k : Kind} {α : Type} {a : α} {s : St} {t : Tok} {rest : List Tok} (hs : s.toks = t :: rest) (hk : t.kind = k) :
    expect k (a, s) = .ok (a, { s with toks := rest }) := by
  unfold expect
  simp only [pop_cons hs, hk, if_true]

theorem bracketed_ok {e : Parser} {c : SCond} {ts : List Tok} (h : Reader pre e 0 c ts) {s : St} {rest : List Tok}
    (hs : s.toks = lparen :: (ts ++ rparen :: rest)) : CondResult pre (bracketed e s) s c rest := by
  obtain ⟨c', s', h1, h2, h3, h4⟩ := h { s with toks := ts ++ rparen :: rest } _ rfl (stop_none rfl)
  refine ⟨c', { s' with toks := rest }, ?_, rfl, h3.adjust, h4⟩
  unfold bracketed
  rw [pop_cons hs]
  simp only
  rw [if_neg (by simp [lparen]), h1]
  show expect .rparen (c', s') = _
  exact expect_ok h2 rfl

/-- What the arguments are read as. -/
def ArgsReader (pre : List (Text × Text)) (e : Parser) (c : SCond) (ts : List Tok) : Prop :=
  ∀ k s rest, s.toks = ts ++ rparen :: rest → ts.length < k → CondResult pre (arguments e k s) s c rest

theorem args_one {e : Parser} {a : SCond} {ts : List Tok} (h : Reader pre e 0 a ts) : ArgsReader pre e (.arg a .nil) ts := by
  intro k s rest hs hk
  obtain ⟨c', s', h1, h2, h3, h4⟩ := h s _ hs (stop_none rfl)
  refine ⟨.arg c' .nil, { s' with toks := rest }, ?_, rfl, ?_, ?_⟩
  · cases k with
    | zero => omega
    | succ k =>
      rw [arguments, h1]
      simp only [Except.bind]
      rw [pop_cons h2]
      simp [rparen]
  · simp only [SCond.vars, List.append_nil]; exact h3.same rfl rfl
  · intro N hN; rw [SCond.meaning, h4 N hN]; rfl

theorem args_cons {e : Parser} {a r : SCond} {s t : List Tok} (ha : Reader pre e 0 a s) (hr : ArgsReader pre e r t) :
    ArgsReader pre e (.arg a r) (s ++ comma :: t) := by
  intro k s0 rest hs hk
  obtain ⟨a', s1, h1, h2, h3, h4⟩ := ha s0 (comma :: (t ++ rparen :: rest)) (by rw [hs]; simp) (stop_none rfl)
  cases k with
  | zero => omega
  | succ k =>
    obtain ⟨r', s2, g1, g2, g3, g4⟩ := hr k { s1 with toks := t ++ rparen :: rest } rest rfl (by simp at hk; omega)
    refine ⟨.arg a' r', s2, ?_, g2, h3.trans g3.start, ?_⟩
    · rw [arguments, h1]
      simp only [Except.bind]
      rw [pop_cons h2]
      simp only
      rw [if_pos (by rfl), g1]
      rfl
    · intro N hN
      rw [SCond.meaning, ← h4 N (fun x i hx => hN x i (g3.ext x i hx)), ← g4 N hN]

/-! ## Functions -/

/-- The parts of `builtin` that do not depend on the name. -/
theorem builtin_pop {e : Parser} {s : St} {w : Text} {rest : List Tok} (hs : s.toks = ident w :: rest) :
    pop s = (ident w, { s with toks := rest }) ∧ (ident w).raw.map lower = w.map lower := ⟨pop_cons hs, rfl⟩

theorem functions1_ok : ∀ x ∈ functions1, aggregates.contains x.1 = false ∧ x.1 ≠ kXsd ∧ x.1 ≠ kNot ∧ x.1 ≠ kBound ∧ find unaryFunctions x.1 = some x.2 := by
  decide

theorem functions2_ok : ∀ x ∈ functions2, aggregates.contains x.1 = false ∧ x.1 ≠ kXsd ∧ x.1 ≠ kNot ∧ x.1 ≠ kBound ∧ find unaryFunctions x.1 = none
    ∧ find binaryFunctions x.1 = some x.2 := by
  decide

theorem function1_ok {e : Parser} {f w : Text} {op : UnOp} {a : SCond} {ts : List Tok} (hf : (f, op) ∈ functions1) (hw : w.map lower = f)
    (ha : Reader pre e 0 a ts) {s : St} {rest : List Tok} (hs : s.toks = ident w :: lparen :: (ts ++ rparen :: rest)) :
    CondResult pre (builtin e s) s (.un op a) rest := by
  obtain ⟨c', s', h1, h2, h3, h4⟩ := bracketed_ok ha (s := { s with toks := lparen :: (ts ++ rparen :: rest) }) rfl
  obtain ⟨f1, f2, f3, f4, f5⟩ := functions1_ok _ hf
  simp only at f1 f2 f3 f4 f5
  refine ⟨.un op c', s', ?_, h2, h3.start, fun N hN => by rw [SCond.meaning, h4 N hN]⟩
  unfold builtin
  rw [pop_cons hs]
  simp only [ident, hw, f1, f5]
  rw [if_neg (by simp), if_neg (by simp), if_neg f2, if_neg f3, if_neg f4, h1]
  rfl

theorem cast_ok {e : Parser} {f w : Text} {op : UnOp} {a : SCond} {ts : List Tok} (hf : (f, op) ∈ casts) (hw : w.map lower = f)
    (ha : Reader pre e 0 a ts) {s : St} {rest : List Tok} (hs : s.toks = ident tXsd :: colon :: ident w :: lparen :: (ts ++ rparen :: rest)) :
    CondResult pre (builtin e s) s (.un op a) rest := by
  obtain ⟨c', s', h1, h2, h3, h4⟩ := bracketed_ok ha (s := { s with toks := lparen :: (ts ++ rparen :: rest) }) rfl
  refine ⟨.un op c', s', ?_, h2, h3.start, fun N hN => by rw [SCond.meaning, h4 N hN]⟩
  unfold builtin
  rw [pop_cons hs]
  simp only
  rw [if_neg (fun h => h rfl), if_neg (show ¬ aggregates.contains ((ident tXsd).raw.map lower) = true by decide), if_pos (show (ident tXsd).raw.map lower = kXsd by decide)]
  rw [pop_cons (s := { s with toks := colon :: ident w :: lparen :: (ts ++ rparen :: rest) }) rfl]
  simp only
  rw [if_neg (by simp [colon])]
  rw [pop_cons (s := { s with toks := ident w :: lparen :: (ts ++ rparen :: rest) }) rfl]
  simp only
  have key : ∀ x ∈ casts, (x.2 = .decimal ∧ (x.1 = kDecimal ∨ x.1 = kDouble ∨ x.1 = kFloat))
      ∨ (x.2 = .string ∧ ¬ (x.1 = kDecimal ∨ x.1 = kDouble ∨ x.1 = kFloat) ∧ x.1 = kString) := by decide
  have kw : ∀ k, isKeyword (ident w) k = decide (f = k) := by
    intro k; unfold isKeyword; simp only [ident, hw]; rw [Bool.eq_iff_iff]; simp
  simp only [kw, decide_eq_true_eq]
  rcases key _ hf with ⟨k1, k2⟩ | ⟨k1, k2, k3⟩
  · simp only at k1 k2
    rw [if_pos k2, h1, k1]; rfl
  · simp only at k1 k2 k3
    rw [if_neg k2, if_pos k3, h1, k1]; rfl

theorem bound_ok {e : Parser} {w x : Text} (hw : w.map lower = kBound) {s : St} {rest : List Tok}
    (hs : s.toks = ident w :: lparen :: ⟨.variable, x⟩ :: rparen :: rest) : CondResult pre (builtin e s) s (.bound x) rest := by
  obtain ⟨i, s', h1, h2, h3, h4⟩ := nameVariable_spec { s with toks := rparen :: rest } x
  refine ⟨.bound i, { s' with toks := rest }, ?_, rfl, h4.adjust, fun N hN => by simp [SCond.meaning, num, hN x i h3]⟩
  unfold builtin
  rw [pop_cons hs]
  simp only [ident, hw]
  rw [if_neg (by simp), if_neg (by decide), if_neg (by decide), if_neg (by decide), if_pos (by simp)]
  rw [pop_cons (s := { s with toks := lparen :: ⟨.variable, x⟩ :: rparen :: rest }) rfl]
  simp only
  rw [if_neg (by simp [lparen])]
  rw [pop_cons (s := { s with toks := ⟨.variable, x⟩ :: rparen :: rest }) rfl]
  simp only
  rw [if_neg (by simp), h1]
  exact expect_ok h2 rfl

/-- The first argument of a function with more of them, and the comma. -/
theorem first_ok {e : Parser} {a : SCond} {ts : List Tok} (ha : Reader pre e 0 a ts) {s : St} {rest : List Tok} (hs : s.toks = ts ++ comma :: rest) :
    ∃ a' s', e s = .ok (a', s') ∧ expect .comma (a', s') = .ok (a', { s' with toks := rest }) ∧ s'.toks = comma :: rest ∧ Reads s s' a.vars
      ∧ ∀ N, Ext s'.names N → a' = a.meaning pre (num N) := by
  obtain ⟨a', s', h1, h2, h3, h4⟩ := ha s _ hs (stop_none rfl)
  exact ⟨a', s', h1, expect_ok h2 rfl, h2, h3, h4⟩

theorem last_ok {e : Parser} {a : SCond} {ts : List Tok} (ha : Reader pre e 0 a ts) {s : St} {rest : List Tok} (hs : s.toks = ts ++ rparen :: rest) :
    ∃ a' s', e s = .ok (a', s') ∧ expect .rparen (a', s') = .ok (a', { s' with toks := rest }) ∧ s'.toks = rparen :: rest ∧ Reads s s' a.vars
      ∧ ∀ N, Ext s'.names N → a' = a.meaning pre (num N) := by
  obtain ⟨a', s', h1, h2, h3, h4⟩ := ha s _ hs (stop_none rfl)
  exact ⟨a', s', h1, expect_ok h2 rfl, h2, h3, h4⟩

theorem function2_ok {e : Parser} {f w : Text} {op : BinOp} {a b : SCond} {ts us : List Tok} (hf : (f, op) ∈ functions2) (hw : w.map lower = f)
    (ha : Reader pre e 0 a ts) (hb : Reader pre e 0 b us) {s : St} {rest : List Tok}
    (hs : s.toks = ident w :: lparen :: (ts ++ comma :: (us ++ rparen :: rest))) : CondResult pre (builtin e s) s (.bin op a b) rest := by
  obtain ⟨a', s1, h1, h2, h3, h4, h5⟩ := first_ok ha (s := { s with toks := ts ++ comma :: (us ++ rparen :: rest) }) rfl
  obtain ⟨b', s2, g1, g2, g3, g4, g5⟩ := last_ok hb (s := { s1 with toks := us ++ rparen :: rest }) rfl
  obtain ⟨f1, f2, f3, f4, f5, f6⟩ := functions2_ok _ hf
  simp only at f1 f2 f3 f4 f5 f6
  refine ⟨.bin op a' b', { s2 with toks := rest }, ?_, rfl, h4.start.trans (g4.adjust), ?_⟩
  · unfold builtin
    rw [pop_cons hs]
    simp only [ident, hw, f1, f5]
    rw [if_neg (by simp), if_neg (by simp), if_neg f2, if_neg f3, if_neg f4]
    rw [pop_cons (s := { s with toks := lparen :: (ts ++ comma :: (us ++ rparen :: rest)) }) rfl]
    simp only [f6]
    rw [if_neg (by simp [lparen]), h1]
    simp only [Except.bind, h2, g1, g2]
    rfl
  · intro N hN
    rw [SCond.meaning, ← h5 N (fun x i hx => hN x i (g4.ext x i hx)), ← g5 N hN]

theorem none_ok {e : Parser} {s : St} {rest : List Tok} (hs : s.toks = rparen :: rest) : optionalArg e s = .ok (.nil, s) := by
  unfold optionalArg
  rw [pop_cons hs]
  simp [rparen]

theorem some_ok {e : Parser} {s : St} {rest : List Tok} (hs : s.toks = comma :: rest) : optionalArg e s = e { s with toks := rest } := by
  unfold optionalArg
  rw [pop_cons hs]
  simp [comma]

theorem ext_trans {s : St} {v : List Text} {t : St} (h : Reads s t v) {N : List (Text × Nat)} (hN : Ext t.names N) : Ext s.names N := h.ext.trans hN

theorem regex2_ok {e : Parser} {w : Text} {a b : SCond} {ts us : List Tok} (hw : w.map lower = kRegex)
    (ha : Reader pre e 0 a ts) (hb : Reader pre e 0 b us) {s : St} {rest : List Tok}
    (hs : s.toks = ident w :: lparen :: (ts ++ comma :: (us ++ rparen :: rest))) : CondResult pre (builtin e s) s (.regex a b .nil) rest := by
  obtain ⟨a', s1, h1, h2, h3, h4, h5⟩ := first_ok ha (s := { s with toks := ts ++ comma :: (us ++ rparen :: rest) }) rfl
  obtain ⟨b', s2, g1, g2, g3, g4, g5⟩ := last_ok hb (s := { s1 with toks := us ++ rparen :: rest }) rfl
  refine ⟨.regex a' b' .nil, { s2 with toks := rest }, ?_, rfl, ?_, ?_⟩
  · unfold builtin
    rw [pop_cons hs]
    simp only [ident, hw]
    rw [if_neg (by simp), if_neg (by decide), if_neg (by decide), if_neg (by decide), if_neg (by decide)]
    rw [pop_cons (s := { s with toks := lparen :: (ts ++ comma :: (us ++ rparen :: rest)) }) rfl]
    simp only [show find unaryFunctions kRegex = none by decide, show find binaryFunctions kRegex = none by decide]
    rw [if_neg (by simp [lparen]), if_pos (by simp), h1]
    simp only [Except.bind, h2, g1, none_ok g3]
    rw [expect_ok (k := .rparen) g3 rfl]
    rfl
  · simp only [SCond.vars, List.append_nil]
    exact h4.start.trans g4.adjust
  · intro N hN
    rw [SCond.meaning, ← h5 N (g4.ext.trans hN), ← g5 N hN]; rfl

theorem regex3_ok {e : Parser} {w : Text} {a b c : SCond} {ts us vs : List Tok} (hw : w.map lower = kRegex)
    (ha : Reader pre e 0 a ts) (hb : Reader pre e 0 b us) (hc : Reader pre e 0 c vs) {s : St} {rest : List Tok}
    (hs : s.toks = ident w :: lparen :: (ts ++ comma :: (us ++ comma :: (vs ++ rparen :: rest)))) : CondResult pre (builtin e s) s (.regex a b c) rest := by
  obtain ⟨a', s1, h1, h2, h3, h4, h5⟩ := first_ok ha (s := { s with toks := ts ++ comma :: (us ++ comma :: (vs ++ rparen :: rest)) }) rfl
  obtain ⟨b', s2, g1, g2, g3, g4, g5⟩ := first_ok hb (s := { s1 with toks := us ++ comma :: (vs ++ rparen :: rest) }) rfl
  obtain ⟨c', s3, k1, k2, k3, k4, k5⟩ := last_ok hc (s := { s2 with toks := vs ++ rparen :: rest }) rfl
  refine ⟨.regex a' b' c', { s3 with toks := rest }, ?_, rfl, (h4.start.trans g4.start).trans k4.adjust, ?_⟩
  · unfold builtin
    rw [pop_cons hs]
    simp only [ident, hw]
    rw [if_neg (by simp), if_neg (by decide), if_neg (by decide), if_neg (by decide), if_neg (by decide)]
    rw [pop_cons (s := { s with toks := lparen :: (ts ++ comma :: (us ++ comma :: (vs ++ rparen :: rest))) }) rfl]
    simp only [show find unaryFunctions kRegex = none by decide, show find binaryFunctions kRegex = none by decide]
    rw [if_neg (by simp [lparen]), if_pos (by simp), h1]
    simp only [Except.bind, h2, g1, some_ok g3, k1, k2]
    rfl
  · intro N hN
    have e2 : Ext s2.names N := k4.ext.trans hN
    rw [SCond.meaning, ← h5 N (g4.ext.trans e2), ← g5 N e2, ← k5 N hN]

theorem replace3_ok {e : Parser} {w : Text} {a b c : SCond} {ts us vs : List Tok} (hw : w.map lower = kReplace)
    (ha : Reader pre e 0 a ts) (hb : Reader pre e 0 b us) (hc : Reader pre e 0 c vs) {s : St} {rest : List Tok}
    (hs : s.toks = ident w :: lparen :: (ts ++ comma :: (us ++ comma :: (vs ++ rparen :: rest)))) : CondResult pre (builtin e s) s (.replace a b c .nil) rest := by
  obtain ⟨a', s1, h1, h2, h3, h4, h5⟩ := first_ok ha (s := { s with toks := ts ++ comma :: (us ++ comma :: (vs ++ rparen :: rest)) }) rfl
  obtain ⟨b', s2, g1, g2, g3, g4, g5⟩ := first_ok hb (s := { s1 with toks := us ++ comma :: (vs ++ rparen :: rest) }) rfl
  obtain ⟨c', s3, k1, k2, k3, k4, k5⟩ := last_ok hc (s := { s2 with toks := vs ++ rparen :: rest }) rfl
  refine ⟨.replace a' b' c' .nil, { s3 with toks := rest }, ?_, rfl, ?_, ?_⟩
  · unfold builtin
    rw [pop_cons hs]
    simp only [ident, hw]
    rw [if_neg (by simp), if_neg (by decide), if_neg (by decide), if_neg (by decide), if_neg (by decide)]
    rw [pop_cons (s := { s with toks := lparen :: (ts ++ comma :: (us ++ comma :: (vs ++ rparen :: rest))) }) rfl]
    simp only [show find unaryFunctions kReplace = none by decide, show find binaryFunctions kReplace = none by decide]
    rw [if_neg (by simp [lparen]), if_neg (by decide), if_pos (by simp), h1]
    simp only [Except.bind, h2, g1, some_ok g3, k1, none_ok k3]
    rw [expect_ok (k := .rparen) k3 rfl]
    rfl
  · simp only [SCond.vars, List.append_nil]
    exact (h4.start.trans g4.start).trans k4.adjust
  · intro N hN
    have e2 : Ext s2.names N := k4.ext.trans hN
    rw [SCond.meaning, ← h5 N (g4.ext.trans e2), ← g5 N e2, ← k5 N hN]; rfl

theorem replace4_ok {e : Parser} {w : Text} {a b c d : SCond} {ts us vs ws : List Tok} (hw : w.map lower = kReplace)
    (ha : Reader pre e 0 a ts) (hb : Reader pre e 0 b us) (hc : Reader pre e 0 c vs) (hd : Reader pre e 0 d ws) {s : St} {rest : List Tok}
    (hs : s.toks = ident w :: lparen :: (ts ++ comma :: (us ++ comma :: (vs ++ comma :: (ws ++ rparen :: rest))))) :
    CondResult pre (builtin e s) s (.replace a b c d) rest := by
  obtain ⟨a', s1, h1, h2, h3, h4, h5⟩ :=
    first_ok ha (s := { s with toks := ts ++ comma :: (us ++ comma :: (vs ++ comma :: (ws ++ rparen :: rest))) }) rfl
  obtain ⟨b', s2, g1, g2, g3, g4, g5⟩ := first_ok hb (s := { s1 with toks := us ++ comma :: (vs ++ comma :: (ws ++ rparen :: rest)) }) rfl
  obtain ⟨c', s3, k1, k2, k3, k4, k5⟩ := first_ok hc (s := { s2 with toks := vs ++ comma :: (ws ++ rparen :: rest) }) rfl
  obtain ⟨d', s4, l1, l2, l3, l4, l5⟩ := last_ok hd (s := { s3 with toks := ws ++ rparen :: rest }) rfl
  refine ⟨.replace a' b' c' d', { s4 with toks := rest }, ?_, rfl,
    ((h4.start.trans g4.start).trans k4.start).trans l4.adjust, ?_⟩
  · unfold builtin
    rw [pop_cons hs]
    simp only [ident, hw]
    rw [if_neg (by simp), if_neg (by decide), if_neg (by decide), if_neg (by decide), if_neg (by decide)]
    rw [pop_cons (s := { s with toks := lparen :: (ts ++ comma :: (us ++ comma :: (vs ++ comma :: (ws ++ rparen :: rest)))) }) rfl]
    simp only [show find unaryFunctions kReplace = none by decide, show find binaryFunctions kReplace = none by decide]
    rw [if_neg (by simp [lparen]), if_neg (by decide), if_pos (by simp), h1]
    simp only [Except.bind, h2, g1, some_ok g3, k1, some_ok k3, l1, l2]
    rfl
  · intro N hN
    have e3 : Ext s3.names N := l4.ext.trans hN
    have e2 : Ext s2.names N := k4.ext.trans e3
    rw [SCond.meaning, ← h5 N (g4.ext.trans e2), ← g5 N e2, ← k5 N e3, ← l5 N hN]

theorem isIn_ok {e : Parser} {w : Text} {a r : SCond} {ts us : List Tok} (hw : w.map lower = kIn) (ha : Reader pre e 0 a ts) (hr : ArgsReader pre e r us)
    {s : St} {rest : List Tok} (hs : s.toks = ident w :: lparen :: (ts ++ comma :: (us ++ rparen :: rest))) :
    CondResult pre (builtin e s) s (.isIn a r) rest := by
  obtain ⟨a', s1, h1, h2, h3, h4, h5⟩ := first_ok ha (s := { s with toks := ts ++ comma :: (us ++ rparen :: rest) }) rfl
  obtain ⟨r', s2, g1, g2, g3, g4⟩ := hr (s.toks.length + 1) { s1 with toks := us ++ rparen :: rest } rest rfl (by rw [hs]; simp; omega)
  refine ⟨.isIn a' r', s2, ?_, g2, h4.start.trans g3.start, ?_⟩
  · unfold builtin
    rw [pop_cons hs]
    simp only [ident, hw]
    rw [if_neg (by simp), if_neg (by decide), if_neg (by decide), if_neg (by decide), if_neg (by decide)]
    rw [pop_cons (s := { s with toks := lparen :: (ts ++ comma :: (us ++ rparen :: rest)) }) rfl]
    simp only [show find unaryFunctions kIn = none by decide, show find binaryFunctions kIn = none by decide]
    rw [if_neg (by simp [lparen]), if_neg (by decide), if_neg (by decide), if_pos (by simp), h1]
    simp only [Except.bind, h2]
    rw [pop_cons h3]
    simp only
    rw [if_neg (by simp [comma]), g1]
    rfl
  · intro N hN
    rw [SCond.meaning, ← h5 N (g3.ext.trans hN), ← g4 N hN]

theorem call_ok {e : Parser} {f : Text} {must : Bool} {r : SCond} {ts : List Tok} (hr : ArgsReader pre e r ts) (hne : ∀ t, ts.head? = some t → t.kind ≠ .rparen)
    (hne' : ts ≠ []) {s : St} {rest : List Tok} (hs : s.toks = lparen :: (ts ++ rparen :: rest)) : CondResult pre (iriOrCall e must f s) s (.call f r) rest := by
  obtain ⟨r', s2, g1, g2, g3, g4⟩ := hr (s.toks.length + 1) { s with toks := ts ++ rparen :: rest } rest rfl (by rw [hs]; simp; omega)
  refine ⟨.call f r', s2, ?_, g2, g3.start, fun N hN => by rw [SCond.meaning, g4 N hN]⟩
  unfold iriOrCall
  rw [pop_cons hs]
  simp only
  rw [if_pos (by simp [lparen])]
  match ts, hne, hne' with
  | t :: ts', hne, _ =>
    rw [pop_cons (s := { s with toks := t :: ts' ++ rparen :: rest }) rfl]
    simp only
    rw [if_neg (hne t rfl), g1]
    rfl

theorem call0_ok {e : Parser} {f : Text} {must : Bool} {s : St} {rest : List Tok} (hs : s.toks = lparen :: rparen :: rest) :
    CondResult pre (iriOrCall e must f s) s (.call f .nil) rest := by
  refine ⟨.call f .nil, { s with toks := rest }, ?_, rfl, (Reads.refl s).same rfl rfl, fun N _ => rfl⟩
  unfold iriOrCall
  rw [pop_cons hs]
  simp only
  rw [if_pos (by simp [lparen]), pop_cons (s := { s with toks := rparen :: rest }) rfl]
  simp [rparen]

/-! ## The grammar -/

/-- What is shown for each level; `n` bounds the nesting. -/
def Motive (pre : List (Text × Text)) (l : Level) (c : SCond) (ts : List Tok) : Prop :=
  (∃ t r, ts = t :: r ∧ t.kind ≠ .rparen) ∧ ∀ n, ts.length < n →
  match l with
  | .or => Chain pre orOp (andExpr pre (primary pre n)) 0 c ts
  | .and => Chain pre andOp (relational pre (numericExpr (primary pre n))) 1 c ts
  | .rel => Reader pre (relational pre (numericExpr (primary pre n))) 2 c ts
  | .add => Chain pre addOp (leftAssoc mulOp (unary (primary pre n))) 3 c ts
  | .mul => Chain pre mulOp (unary (primary pre n)) 4 c ts
  | .unary => Reader pre (unary (primary pre n)) 5 c ts
  | .primary => (∃ t r, ts = t :: r ∧ unOp t.kind = none) ∧ Reader pre (primary pre n) 5 c ts
  | .args => ArgsReader pre (expression pre (primary pre n)) c ts

theorem Motive.or {c : SCond} {ts : List Tok} (h : Motive pre .or c ts) {n : Nat} (hn : ts.length < n) :
    Reader pre (expression pre (primary pre n)) 0 c ts := chain_reader orOp_rank rfl (h.2 n hn)

theorem primary_ident {n : Nat} {s : St} {w : Text} {rest : List Tok} (hs : s.toks = ident w :: rest) :
    primary pre (n + 1) s = match find pre w with
      | some iri =>
        if w = kXsd then builtin (expression pre (primary pre n)) s
        else if (pop { s with toks := rest }).1.kind ≠ .colon then .error .syntax
        else .ok (.iri (iri ++ (pop (pop { s with toks := rest }).2).1.raw), (pop (pop { s with toks := rest }).2).2)
      | none =>
        if isKeyword (ident w) kTrue = true then .ok (.lit kTrue (.type xsdBoolean), { s with toks := rest })
        else if isKeyword (ident w) kFalse = true then .ok (.lit kFalse (.type xsdBoolean), { s with toks := rest })
        else builtin (expression pre (primary pre n)) s := by
  rw [primary, pop_cons hs]
  rfl

/-- A primary expression that begins with the name of a function. -/
theorem primary_builtin {n : Nat} {s : St} {w : Text} {rest : List Tok} (hs : s.toks = ident w :: rest) (hw : find pre w = none)
    (h1 : w.map lower ≠ kTrue) (h2 : w.map lower ≠ kFalse) : primary pre (n + 1) s = builtin (expression pre (primary pre n)) s := by
  rw [primary, pop_cons hs]
  have k1 : isKeyword (ident w) kTrue = false := by simpa [isKeyword, ident] using h1
  have k2 : isKeyword (ident w) kFalse = false := by simpa [isKeyword, ident] using h2
  simp [show (ident w).kind = .identifier from rfl, show (ident w).raw = w from rfl, hw, k1, k2]

theorem head_append {s : List Tok} (h : ∃ t r, s = t :: r ∧ t.kind ≠ .rparen) (u : List Tok) : ∃ t r, s ++ u = t :: r ∧ t.kind ≠ .rparen := by
  obtain ⟨t, r, rfl, hk⟩ := h
  exact ⟨t, r ++ u, rfl, hk⟩

theorem derives {l : Level} {c : SCond} {ts : List Tok} (h : Derives pre l c ts) : Motive pre l c ts := by
  -- a function of the given name
  have fn : ∀ {w : Text} {ts : List Tok} {c : SCond}, find pre w = none → w.map lower ≠ kTrue → w.map lower ≠ kFalse →
      (∀ n s rest, s.toks = ident w :: (ts ++ rest) → ts.length < n → CondResult pre (builtin (expression pre (primary pre n)) s) s c rest) →
      Motive pre .primary c (ident w :: ts) := by
    intro w ts c hw h1 h2 h
    refine ⟨⟨_, _, rfl, nofun⟩, fun n hn => ⟨⟨_, _, rfl, rfl⟩, fun s rest hs _ => ?_⟩⟩
    cases n with
    | zero => omega
    | succ n =>
      rw [primary_builtin hs hw h1 h2]
      exact h n s rest hs (by simpa using hn)
  induction h with
  | orUp _ ih => exact ⟨ih.1, fun n hn => chain_up (chain_reader andOp_rank rfl (ih.2 n hn))⟩
  | or _ _ iha ihb =>
    refine ⟨head_append iha.1 _, fun n hn => ?_⟩
    simp only [List.length_append, List.length_cons] at hn
    exact chain_step (iha.2 n (by omega)) (chain_reader andOp_rank rfl (ihb.2 n (by omega))) rfl rfl
  | andUp _ ih => exact ⟨ih.1, fun n hn => chain_up (ih.2 n hn)⟩
  | and _ _ iha ihb =>
    refine ⟨head_append iha.1 _, fun n hn => ?_⟩
    simp only [List.length_append, List.length_cons] at hn
    exact chain_step (iha.2 n (by omega)) (ihb.2 n (by omega)) rfl rfl
  | relUp _ ih => exact ⟨ih.1, fun n hn => rel_up (chain_reader addOp_rank rfl (ih.2 n hn))⟩
  | @rel a b s t o op _ _ ho iha ihb =>
    refine ⟨head_append iha.1 _, fun n hn => ?_⟩
    simp only [List.length_append, List.length_cons] at hn
    have : ∀ x ∈ relToks, relOp x.1.kind = some x.2 := by decide
    exact rel_step (chain_reader addOp_rank rfl (iha.2 n (by omega))) (chain_reader addOp_rank rfl (ihb.2 n (by omega))) (this _ ho)
  | addUp _ ih => exact ⟨ih.1, fun n hn => chain_up (chain_reader mulOp_rank rfl (ih.2 n hn))⟩
  | @add a b s t o op _ _ ho iha ihb =>
    refine ⟨head_append iha.1 _, fun n hn => ?_⟩
    simp only [List.length_append, List.length_cons] at hn
    have : ∀ x ∈ addToks, addOp x.1.kind = some x.2 := by decide
    exact chain_step (iha.2 n (by omega)) (chain_reader mulOp_rank rfl (ihb.2 n (by omega))) (this _ ho) (addOp_rank _ _ (this _ ho))
  | mulUp _ ih => exact ⟨ih.1, fun n hn => chain_up (ih.2 n hn)⟩
  | @mul a b s t o op _ _ ho iha ihb =>
    refine ⟨head_append iha.1 _, fun n hn => ?_⟩
    simp only [List.length_append, List.length_cons] at hn
    have : ∀ x ∈ mulToks, mulOp x.1.kind = some x.2 := by decide
    exact chain_step (iha.2 n (by omega)) (ihb.2 n (by omega)) (this _ ho) (mulOp_rank _ _ (this _ ho))
  | unaryUp _ ih =>
    refine ⟨ih.1, fun n hn => ?_⟩
    obtain ⟨⟨t, r, rfl, ht⟩, h⟩ := ih.2 n hn
    exact unary_up h ht
  | @unary a s o op _ ho ih =>
    have key : ∀ x ∈ unToks, unOp x.1.kind = some x.2 ∧ x.1.kind ≠ .rparen := by decide
    refine ⟨⟨o, s, rfl, (key _ ho).2⟩, fun n hn => ?_⟩
    exact unary_step (ih.2 n (by simp at hn; omega)).2 (key _ ho).1
  | @paren c s _ ih =>
    refine ⟨⟨_, _, rfl, nofun⟩, fun n hn => ⟨⟨_, _, rfl, rfl⟩, fun st rest hs _ => ?_⟩⟩
    cases n with
    | zero => omega
    | succ n =>
      rw [primary]
      have := bracketed_ok (ih.or (n := n) (by simp at hn; omega)) (s := st) (rest := rest) (by rw [hs]; simp)
      rw [pop_cons hs]
      exact this
  | @elem e he ha hx =>
    refine ⟨?_, fun n hn => ⟨?_, fun s rest hs hr => ?_⟩⟩
    · obtain ⟨t, r, h1, h2⟩ := elem_head e
      exact ⟨t, r, h1, by rcases h2 with h | h | h | h <;> rw [h] <;> simp⟩
    · obtain ⟨t, r, h1, h2⟩ := elem_head e
      exact ⟨t, r, h1, by rcases h2 with h | h | h | h <;> rw [h] <;> rfl⟩
    · have hstop : Stops rest := by
        intro t ht
        constructor <;> intro hk
        · exact absurd (hr t ht 5 (by unfold rank; rw [hk])) (Nat.lt_irrefl _)
        · exact absurd (hr t ht 5 (by unfold rank; rw [hk])) (Nat.lt_irrefl _)
      obtain ⟨v, s', h1, h2, h3, h4⟩ := element_spec e he [] s rest hs hstop
      cases n with
      | zero => omega
      | succ n =>
        refine ⟨ofElem v, s', ?_, h2, h3, fun N hN => by rw [SCond.meaning, ← h4 N hN]⟩
        cases e with
        | a => exact absurd rfl ha
        | var x =>
          rw [primary]
          rw [element] at h1
          rw [pop_cons hs] at h1 ⊢
          simp only [Except.ok.injEq, Prod.mk.injEq] at h1 ⊢
          rw [← h1.1, ← h1.2.2]; exact ⟨rfl, rfl⟩
        | iri v =>
          rw [primary]
          rw [element] at h1
          rw [pop_cons hs] at h1 ⊢
          simp only [Except.ok.injEq, Prod.mk.injEq] at h1 ⊢
          rw [← h1.1]
          unfold iriOrCall
          have : (pop { s with toks := rest }).1.kind ≠ .lparen := by
            match rest, hr with
            | [], _ => simp [pop]
            | t :: r, hr =>
              intro hk
              exact absurd (hr t rfl 5 (by unfold rank; simp only [pop] at hk; rw [hk])) (Nat.lt_irrefl _)
          simp only [List.append_eq, List.nil_append] at h1 ⊢
          rw [if_neg this, ← h1.2.2]
          rfl
        | name p l =>
          obtain ⟨hp, hp2, hl⟩ := he
          obtain ⟨i, hi⟩ := Option.isSome_iff_exists.1 hp
          have hs' : s.toks = ident p :: colon :: ident l :: rest := hs
          rw [element, pop_cons hs'] at h1
          change (if p = [97] then _ else Except.map _ (qname pre p { s with toks := colon :: ident l :: rest })) = _ at h1
          rw [if_neg hp2, qname_spec hp hl rfl] at h1
          simp only [Except.map, Except.ok.injEq, Prod.mk.injEq, hi] at h1
          rw [primary_ident hs', hi]
          simp only
          rw [if_neg (fun h => hx l (by rw [show p = tXsd from h]))]
          rw [pop_cons (s := { s with toks := colon :: ident l :: rest }) rfl]
          simp only
          rw [if_neg (by simp [colon]), pop_cons (s := { s with toks := ident l :: rest }) rfl, ← h1.1, ← h1.2.2]
          rfl
        | lit v | lang v t | typed v d | typedName v p l =>
          rw [primary]
          rw [element] at h1
          rw [pop_cons hs] at h1 ⊢
          simp only at h1 ⊢
          match hq : rdfLiteral pre _ _, h1 with
          | .error _, h1 => cases h1
          | .ok (w, s2), h1 =>
            simp only [Except.map, Except.ok.injEq, Prod.mk.injEq] at h1
            obtain ⟨h5, _, h6⟩ := h1
            subst h5 h6
            rw [h4 s2.names (Ext.refl _)]
            rfl
  | @int t =>
    refine ⟨⟨_, _, rfl, nofun⟩, fun n hn => ⟨⟨_, _, rfl, rfl⟩, fun s rest hs _ => ?_⟩⟩
    cases n with
    | zero => omega
    | succ n =>
      refine ⟨_, _, ?_, rfl, (Reads.refl s).same (c := { s with toks := rest }) rfl rfl, fun N _ => rfl⟩
      rw [primary, pop_cons hs]
      rfl
  | @dec t =>
    refine ⟨⟨_, _, rfl, nofun⟩, fun n hn => ⟨⟨_, _, rfl, rfl⟩, fun s rest hs _ => ?_⟩⟩
    cases n with
    | zero => omega
    | succ n =>
      refine ⟨_, _, ?_, rfl, (Reads.refl s).same (c := { s with toks := rest }) rfl rfl, fun N _ => rfl⟩
      rw [primary, pop_cons hs]
      rfl
  | @bool b w hb hw =>
    refine ⟨⟨_, _, rfl, nofun⟩, fun n hn => ⟨⟨_, _, rfl, rfl⟩, fun s rest hs _ => ?_⟩⟩
    cases n with
    | zero => omega
    | succ n =>
      refine ⟨_, _, ?_, rfl, (Reads.refl s).same (c := { s with toks := rest }) rfl rfl, fun N _ => rfl⟩
      rw [primary, pop_cons hs]
      simp only [ident, hw, isKeyword, hb]
      cases b <;> rfl
  | @function1 f w op a s hf hw hp _ ih =>
    have key : ∀ x ∈ functions1, x.1 ≠ kTrue ∧ x.1 ≠ kFalse := by decide
    refine fn hp (hw ▸ (key _ hf).1) (hw ▸ (key _ hf).2) fun n st rest hs hn => ?_
    simp only [List.length_append, List.length_cons, List.length_nil] at hn
    exact function1_ok hf hw (ih.or (by omega)) (by rw [hs]; simp)
  | @function2 f w op a b s t hf hw hp _ _ iha ihb =>
    have key : ∀ x ∈ functions2, x.1 ≠ kTrue ∧ x.1 ≠ kFalse := by decide
    refine fn hp (hw ▸ (key _ hf).1) (hw ▸ (key _ hf).2) fun n st rest hs hn => ?_
    simp only [List.length_append, List.length_cons, List.length_nil] at hn
    exact function2_ok hf hw (iha.or (by omega)) (ihb.or (by omega)) (by rw [hs]; simp)
  | @cast f w op a s hf hw _ ih =>
    refine ⟨⟨_, _, rfl, nofun⟩, fun n hn => ⟨⟨_, _, rfl, rfl⟩, fun st rest hs _ => ?_⟩⟩
    cases n with
    | zero => omega
    | succ n =>
      simp only [List.length_append, List.length_cons, List.length_nil] at hn
      have := cast_ok hf hw (ih.or (n := n) (by omega)) (s := st) (rest := rest) (by rw [hs]; simp)
      have e : primary pre (n + 1) st = builtin (expression pre (primary pre n)) st := by
        rw [primary_ident hs]
        cases hf : find pre tXsd with
        | none => simp only; rw [if_neg (by decide), if_neg (by decide)]
        | some i => simp only; rw [if_pos (by decide)]
      rw [e]; exact this
  | @bound w x hw hp =>
    refine fn hp (by rw [hw]; decide) (by rw [hw]; decide) fun n st rest hs hn => ?_
    exact bound_ok hw hs
  | @regex2 w a b s t hw hp _ _ iha ihb =>
    refine fn hp (by rw [hw]; decide) (by rw [hw]; decide) fun n st rest hs hn => ?_
    simp only [List.length_append, List.length_cons, List.length_nil] at hn
    exact regex2_ok hw (iha.or (by omega)) (ihb.or (by omega)) (by rw [hs]; simp)
  | @regex3 w a b c s t u hw hp _ _ _ iha ihb ihc =>
    refine fn hp (by rw [hw]; decide) (by rw [hw]; decide) fun n st rest hs hn => ?_
    simp only [List.length_append, List.length_cons, List.length_nil] at hn
    exact regex3_ok hw (iha.or (by omega)) (ihb.or (by omega)) (ihc.or (by omega)) (by rw [hs]; simp)
  | @replace3 w a b c s t u hw hp _ _ _ iha ihb ihc =>
    refine fn hp (by rw [hw]; decide) (by rw [hw]; decide) fun n st rest hs hn => ?_
    simp only [List.length_append, List.length_cons, List.length_nil] at hn
    exact replace3_ok hw (iha.or (by omega)) (ihb.or (by omega)) (ihc.or (by omega)) (by rw [hs]; simp)
  | @replace4 w a b c d s t u v hw hp _ _ _ _ iha ihb ihc ihd =>
    refine fn hp (by rw [hw]; decide) (by rw [hw]; decide) fun n st rest hs hn => ?_
    simp only [List.length_append, List.length_cons, List.length_nil] at hn
    exact replace4_ok hw (iha.or (by omega)) (ihb.or (by omega)) (ihc.or (by omega)) (ihd.or (by omega)) (by rw [hs]; simp)
  | @isIn w a r s t hw hp _ _ iha ihr =>
    refine fn hp (by rw [hw]; decide) (by rw [hw]; decide) fun n st rest hs hn => ?_
    simp only [List.length_append, List.length_cons, List.length_nil] at hn
    exact isIn_ok hw (iha.or (by omega)) (ihr.2 n (by omega)) (by rw [hs]; simp)
  | @call0 f hf =>
    refine ⟨⟨_, _, rfl, nofun⟩, fun n hn => ⟨⟨_, _, rfl, rfl⟩, fun st rest hs _ => ?_⟩⟩
    cases n with
    | zero => omega
    | succ n =>
      obtain ⟨c', s', h1, h2, h3, h4⟩ := call0_ok (pre := pre) (e := expression pre (primary pre n)) (f := f) (must := false)
        (s := { st with toks := lparen :: rparen :: rest }) rfl
      refine ⟨c', s', ?_, h2, h3.start, h4⟩
      rw [primary, pop_cons hs]
      simp only [unescape_plain f hf]
      exact h1
  | @call f r s hf _ ih =>
    refine ⟨⟨_, _, rfl, nofun⟩, fun n hn => ⟨⟨_, _, rfl, rfl⟩, fun st rest hs _ => ?_⟩⟩
    cases n with
    | zero => omega
    | succ n =>
      simp only [List.length_append, List.length_cons, List.length_nil] at hn
      obtain ⟨⟨t, r', hs', hk⟩, h⟩ := ih
      obtain ⟨c', s', h1, h2, h3, h4⟩ := call_ok (f := f) (must := false) (h n (by omega)) (by rw [hs']; rintro u hu; cases hu; exact hk) (by rw [hs']; simp)
        (s := { st with toks := lparen :: (s ++ rparen :: rest) }) rfl
      refine ⟨c', s', ?_, h2, h3.start, h4⟩
      rw [primary, pop_cons hs]
      simp only [unescape_plain f hf]
      rw [← h1]
      simp
  | args1 _ ih => exact ⟨ih.1, fun n hn => args_one (ih.or hn)⟩
  | args _ _ iha ihr =>
    refine ⟨head_append iha.1 _, fun n hn => ?_⟩
    simp only [List.length_append, List.length_cons] at hn
    exact args_cons (iha.or (by omega)) (ihr.2 n (by omega))

/-- What follows a condition and does not belong to it. -/
def After (rest : List Tok) : Prop := ∀ t ∈ rest.head?, t.kind ≠ .lparen ∧ t.kind ≠ .at ∧ t.kind ≠ .type

theorem After.stop {rest : List Tok} (h : After rest) : Stop 5 rest := by
  intro t ht r hr
  obtain ⟨h1, h2, h3⟩ := h t ht
  obtain ⟨k, raw⟩ := t
  cases k <;> simp [rank] at hr h1 h2 h3 <;> omega

theorem constraint_ok {pre : List (Text × Text)} {c : SCond} {ts : List Tok} (h : Constraint pre c ts) {s : St} {rest : List Tok} (hs : s.toks = ts ++ rest)
    (hr : After rest) : CondResult pre (constraint pre s) s c rest := by
  have hlen : ts.length ≤ s.toks.length := by rw [hs]; simp
  cases h with
  | brackets h =>
    have := bracketed_ok (Motive.or (derives h) (n := s.toks.length + 1) (by simp at hlen; omega)) (s := s) (rest := rest) (by rw [hs]; simp)
    simp only [constraint]
    rw [pop_cons (by rw [hs]; rfl)]
    exact this
  | @function w t h =>
    have := ((derives h).2 (s.toks.length + 2) (by omega)).2 s rest hs hr.stop
    have hb : constraint pre s = builtin (expression pre (primary pre (s.toks.length + 1))) s := by
      simp only [constraint]
      rw [pop_cons (by rw [hs]; rfl)]
      rfl
    rw [hb]
    rw [primary_ident (rest := lparen :: (t ++ rest)) (by rw [hs]; rfl)] at this
    cases hf : find pre w with
    | some iri =>
      rw [hf] at this
      simp only at this
      split at this
      · exact this
      · rw [if_pos (by rw [pop_cons (by rfl)]; exact (by decide : lparen.kind ≠ .colon))] at this
        obtain ⟨_, _, h1, _⟩ := this
        cases h1
    | none =>
      rw [hf] at this
      simp only at this
      split at this
      · obtain ⟨_, s', h1, h2, _⟩ := this
        injection h1 with h1
        simp only [Prod.mk.injEq] at h1
        rw [← h1.2] at h2
        have := congrArg List.length h2
        simp at this; omega
      · split at this
        · obtain ⟨_, s', h1, h2, _⟩ := this
          injection h1 with h1
          simp only [Prod.mk.injEq] at h1
          rw [← h1.2] at h2
          have := congrArg List.length h2
          simp at this; omega
        · exact this
  | @call f t h =>
    have := ((derives h).2 (s.toks.length + 2) (by omega)).2 s rest hs hr.stop
    rw [primary, pop_cons (t := ⟨.iri, f⟩) (r := lparen :: (t ++ rest)) (by rw [hs]; rfl)] at this
    have hb : constraint pre s = iriOrCall (expression pre (primary pre (s.toks.length + 1))) false (unescape f) { s with toks := lparen :: (t ++ rest) } := by
      simp only [constraint]
      rw [pop_cons (t := ⟨.iri, f⟩) (r := lparen :: (t ++ rest)) (by rw [hs]; rfl)]
      simp only [iriOrCall]
      rw [pop_cons (by rfl)]
      rfl
    rw [hb]
    exact this

theorem parseFilter_ok {pre : List (Text × Text)} {c : SCond} {ts : List Tok} {d : Bool} (hc : Constraint pre c ts) {s : St} {rest : List Tok} (hs : s.toks = ts ++ (point d ++ rest))
    (hr : After rest) (hd : ∀ t ∈ rest.head?, t.kind ≠ .dot) : CondResult pre (parseFilter pre s) s c rest := by
  have ha : After (point d ++ rest) := by
    cases d
    · exact hr
    · rintro t ht; cases ht; decide
  obtain ⟨c', s', h1, h2, h3, h4⟩ := constraint_ok hc hs ha
  unfold parseFilter
  rw [h1]
  cases d with
  | true =>
    refine ⟨c', { s' with toks := rest }, ?_, rfl, h3.same rfl rfl, h4⟩
    simp only [Except.map]
    rw [pop_cons (t := dot) (r := rest) h2, if_pos (by rfl)]
  | false =>
    refine ⟨c', s', ?_, h2, h3, h4⟩
    simp only [Except.map]
    rw [if_neg]
    match rest, h2, hd with
    | [], h2, _ => rw [show pop s' = (⟨.eof, []⟩, s') by unfold pop; rw [h2]; rfl]; nofun
    | t :: r, h2, hd => rw [pop_cons (t := t) (r := r) h2]; exact hd t rfl

end Trident.Sparql.Parse
