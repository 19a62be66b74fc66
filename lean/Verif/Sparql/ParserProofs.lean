import Verif.Sparql.ParserSpec
import Verif.Sparql.ExprProofs
/-!
# Proofs about the parser of groups
-/
namespace Trident.Sparql.Parse

open Lex Spec

variable {pre : List (Text × Text)}

/-! ## Groups -/

theorem append_assoc (a b c : Group) : append a (append b c) = append (append a b) c := by
  cases a; cases b; cases c; simp [append]

theorem append_empty (a : Group) : append a Group.empty = a := by cases a; simp [append, Group.empty]

theorem empty_append (a : Group) : append Group.empty a = a := by cases a; simp [append, Group.empty]

theorem addPattern_eq (g : Group) (t : Triple) : g.addPattern t = append g (.mk [t] [] [] [] [] []) := by cases g; simp [append, Group.addPattern]
theorem addOptional_eq (g h : Group) : g.addOptional h = append g (.mk [] [h] [] [] [] []) := by cases g; simp [append, Group.addOptional]
theorem addUnion_eq (g : Group) (h : List Group) : g.addUnion h = append g (.mk [] [] [h] [] [] []) := by cases g; simp [append, Group.addUnion]
theorem addMinus_eq (g h : Group) : g.addMinus h = append g (.mk [] [] [] [h] [] []) := by cases g; simp [append, Group.addMinus]
theorem addValues_eq (g : Group) (h : List Nat × List Elem) : g.addValues h = append g (.mk [] [] [] [] [h] []) := by cases g; simp [append, Group.addValues]
theorem addFilter_eq (g : Group) (h : Cond) : g.addFilter h = append g (.mk [] [] [] [] [] [h]) := by cases g; simp [append, Group.addFilter]

theorem merge_eq (f : Text → Nat) (p : Pat) (B : List Text) (hm : p.MergeableIn B) : ∃ a b c d, p.meaning pre f = .mk a b c [] [] d := by
  induction p generalizing B with
  | nil => exact ⟨[], [], [], [], rfl⟩
  | block s p o more d rest ih =>
    obtain ⟨a, b, c, d, e⟩ := ih B hm
    exact ⟨_, _, _, _, by rw [Pat.meaning, e]; rfl⟩
  | optional g rest _ ih =>
    obtain ⟨a, b, c, d, e⟩ := ih B hm
    exact ⟨_, _, _, _, by rw [Pat.meaning, e]; rfl⟩
  | union g alts rest _ _ ih =>
    obtain ⟨a, b, c, d, e⟩ := ih B hm
    exact ⟨_, _, _, _, by rw [Pat.meaning, e]; rfl⟩
  | alt g rest => exact hm.elim
  | minus g rest => exact hm.elim
  | values vars rows rest => exact hm.elim
  | filter c ts d rest ih =>
    obtain ⟨a, b, c, d, e⟩ := ih B hm.2
    exact ⟨_, _, _, _, by rw [Pat.meaning, e]; rfl⟩
  | nested g rest ihg ih =>
    obtain ⟨a, b, c, d, e⟩ := ih B hm.2
    obtain ⟨a', b', c', d', e'⟩ := ihg _ hm.1
    exact ⟨_, _, _, _, by rw [Pat.meaning, e, e']; rfl⟩

theorem merge_append (f : Text → Nat) (p : Pat) (hm : p.Mergeable) (g : Group) : g.merge (p.meaning pre f) = append g (p.meaning pre f) := by
  obtain ⟨a, b, c, d, e⟩ := merge_eq (pre := pre) f p _ hm
  rw [e]
  cases g
  simp [Group.merge, append]

theorem ok_tail {p : Pat} (h : ∀ v r x, p ≠ .values v r x) (hp : p.Ok pre true) (hh : ∀ g r, p ≠ .optional g r) (hm : ∀ g r, p ≠ .minus g r) (hf : ∀ c ts d r, p ≠ .filter c ts d r) : p.Ok pre false := by
  cases p with
  | block s p o more d rest =>
    rw [Pat.Ok] at *
    refine ⟨hp.1, hp.2.1, hp.2.2.1, hp.2.2.2.1, fun t ht => ⟨(hp.2.2.2.2.1 t ht).1, fun h => by cases h⟩, hp.2.2.2.2.2⟩
  | optional g rest => exact absurd rfl (hh g rest)
  | minus g rest => exact absurd rfl (hm g rest)
  | values v r x => exact absurd rfl (h v r x)
  | filter c ts d r => exact absurd rfl (hf c ts d r)
  | nil => rw [Pat.Ok]; trivial
  | union g alts rest => rw [Pat.Ok] at *; exact hp
  | alt g rest => rw [Pat.Ok] at hp; exact hp.elim
  | nested g rest => rw [Pat.Ok] at *; exact hp

variable {K : Spelling}

/-- What a pattern begins with. -/
theorem head_ok {tl : Bool} {p : Pat} (hp : p.Ok pre tl) (rest : List Tok) (t : Tok) (ht : (p.toks K ++ rcurly :: rest).head? = some t) :
    t.kind ≠ .dot ∧ t.kind ≠ .semicolon ∧ t.kind ≠ .comma ∧ t.kind ≠ .at ∧ t.kind ≠ .type ∧ isKeyword t kUnion = false := by
  cases p with
  | nil => cases ht; decide
  | block s p o more d rest =>
    rw [Pat.Ok] at hp
    obtain ⟨u, us, h, hk⟩ := elem_head s
    rw [Pat.toks, h] at ht
    cases ht
    have hw := (hp.2.2.2.2.1 t (by rw [h]; rfl)).1
    have hu : isKeyword t kUnion = false := by
      unfold isKeyword
      rw [beq_eq_false_iff_ne]
      intro e
      exact hw (by rw [e]; decide)
    rcases hk with hk | hk | hk | hk <;> rw [hk] <;> exact ⟨by decide, by decide, by decide, by decide, by decide, hu⟩
  | optional g rest => cases ht; exact ⟨nofun, nofun, nofun, nofun, nofun, by rw [isKeyword_ident K.hoptional]; decide⟩
  | union g alts rest => cases ht; decide
  | alt g rest => rw [Pat.Ok] at hp; exact hp.elim
  | minus g rest => cases ht; exact ⟨nofun, nofun, nofun, nofun, nofun, by rw [isKeyword_ident K.hminus]; decide⟩
  | values vars rows rest => cases ht; exact ⟨nofun, nofun, nofun, nofun, nofun, by rw [isKeyword_ident K.hvalues]; decide⟩
  | nested g rest => cases ht; decide
  | filter c ts d rest => cases ht; exact ⟨nofun, nofun, nofun, nofun, nofun, by rw [isKeyword_ident K.hfilter]; decide⟩

theorem head_lparen {tl : Bool} {p : Pat} (hp : p.Ok pre tl) (rest : List Tok) (t : Tok) (ht : (p.toks K ++ rcurly :: rest).head? = some t) : t.kind ≠ .lparen := by
  cases p with
  | block s p o more d rest =>
    obtain ⟨u, us, h, hk⟩ := elem_head s
    rw [Pat.toks, h] at ht
    cases ht
    rcases hk with hk | hk | hk | hk <;> rw [hk] <;> decide
  | alt g rest => rw [Pat.Ok] at hp; exact hp.elim
  | _ => cases ht; nofun

theorem stops_pat {tl : Bool} {p : Pat} (hp : p.Ok pre tl) (rest : List Tok) : Stops (p.toks K ++ rcurly :: rest) := fun t ht =>
  let h := head_ok hp rest t ht
  ⟨h.2.2.2.1, h.2.2.2.2.1⟩

theorem skipDot_pat {tl : Bool} {p : Pat} (hp : p.Ok pre tl) {rest : List Tok} {s : St} (hs : s.toks = p.toks K ++ rcurly :: rest) : skipDot s = s := by
  have : ∃ t r, s.toks = t :: r := by
    rw [hs]; cases p.toks K <;> exact ⟨_, _, rfl⟩
  obtain ⟨t, r, e⟩ := this
  have hd := (head_ok hp rest t (by rw [← hs, e]; rfl)).1
  unfold skipDot
  rw [pop_cons e]
  simp [hd]

theorem moreStops (more : List (Option SElem × SElem)) {X : List Tok} (hX : Stops X) : Stops (moreToks more ++ X) := by
  match more with
  | [] => exact hX
  | (some p, o) :: l => exact stops_cons _ _ (by decide) (by decide)
  | (none, o) :: l => exact stops_cons _ _ (by decide) (by decide)

/-- The further predicates and objects of a subject. -/
theorem more_spec (loc : List (Text × Nat)) (subj : Elem) : ∀ (more : List (Option SElem × SElem)) (pred : Elem) (g : Group) (s : St) (X : List Tok) (m : Nat),
    (∀ x ∈ more, (∀ p ∈ x.1, p.Ok pre) ∧ x.2.Ok pre) → s.toks = moreToks more ++ X → Stops X → more.length ≤ m →
    ∃ pred' g' s', tail pre m subj pred loc g s = tail pre (m - more.length) subj pred' loc g' s' ∧ s'.toks = X
      ∧ Reads s s' (more.flatMap fun x => (x.1.map SElem.vars).getD [] ++ x.2.vars)
      ∧ ∀ N', Ext s'.names N' → g' = append g (.mk (moreTriples pre (num N') subj pred more) [] [] [] [] [])
  | [], pred, g, s, X, m, _, hs, _, _ => ⟨pred, g, s, rfl, hs, Reads.refl s, fun _ _ => (append_empty g).symm⟩
  | (some p, o) :: l, pred, g, s, X, m + 1, hok, hs, hX, hm => by
    obtain ⟨hp, ho⟩ := hok _ (List.mem_cons_self ..)
    obtain ⟨v1, s1, a1, a2, a3, a4⟩ := element_spec p (hp p rfl) loc { s with toks := _ } _ rfl (stops_elem o (moreToks l ++ X))
    obtain ⟨v2, s2, b1, b2, b3, b4⟩ := element_spec o ho loc s1 _ a2 (moreStops l hX)
    obtain ⟨pred', g', s', c1, c2, c3, c4⟩ := more_spec loc subj l v1 (g.addPattern (subj, v1, v2)) s2 X m
      (fun x hx => hok x (List.mem_cons_of_mem _ hx)) b2 hX (Nat.le_of_succ_le_succ hm)
    refine ⟨pred', g', s', ?_, c2, ?_, ?_⟩
    · rw [tail, pop_cons (by rw [hs]; rfl)]
      simp only [semicolon, if_true]
      have e : { s with toks := (p.toks ++ (o.toks ++ moreToks l)).append X } = { s with toks := p.toks ++ (o.toks ++ (moreToks l ++ X)) } := by
        simp [List.append_assoc]
      rw [e, a1]
      simp only [Except.bind]
      rw [b1]
      simp only [Except.bind]
      rw [c1, List.length_cons, Nat.add_sub_add_right]
    · refine (((a3.from (a := s) rfl rfl).trans b3).trans c3).of_eq ?_
      simp
    · intro N' hN
      rw [c4 N' hN, addPattern_eq, ← append_assoc, b4 N' (c3.ext.trans hN), a4 N' (b3.ext.trans (c3.ext.trans hN))]
      rfl
  | (none, o) :: l, pred, g, s, X, m + 1, hok, hs, hX, hm => by
    obtain ⟨_, ho⟩ := hok _ (List.mem_cons_self ..)
    obtain ⟨v2, s2, b1, b2, b3, b4⟩ := element_spec o ho loc { s with toks := _ } _ rfl (moreStops l hX)
    obtain ⟨pred', g', s', c1, c2, c3, c4⟩ := more_spec loc subj l pred (g.addPattern (subj, pred, v2)) s2 X m
      (fun x hx => hok x (List.mem_cons_of_mem _ hx)) b2 hX (Nat.le_of_succ_le_succ hm)
    refine ⟨pred', g', s', ?_, c2, ?_, ?_⟩
    · rw [tail, pop_cons (by rw [hs]; rfl)]
      simp only [comma, if_true]
      have e : { s with toks := (o.toks ++ moreToks l).append X } = { s with toks := o.toks ++ (moreToks l ++ X) } := by
        simp [List.append_assoc]
      rw [e, b1]
      simp only [Except.bind]
      rw [if_neg (by decide), c1, List.length_cons, Nat.add_sub_add_right]
    · refine ((b3.from (a := s) rfl rfl).trans c3).of_eq ?_
      simp
    · intro N' hN
      rw [c4 N' hN, addPattern_eq, ← append_assoc, b4 N' (c3.ext.trans hN)]
      rfl

end Trident.Sparql.Parse
