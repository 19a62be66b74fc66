import Verif.Sparql.ParserProofs
/-!
# Groups are read as written
-/
namespace Trident.Sparql.Parse

open Lex Spec

variable {pre : List (Text × Text)} {K : Spelling}

theorem kw_optional (w : Text) : isKeyword (ident K.optional) w = (kOptional == w) := isKeyword_ident K.hoptional
theorem kw_union (w : Text) : isKeyword (ident K.union) w = (kUnion == w) := isKeyword_ident K.hunion
theorem kw_minus (w : Text) : isKeyword (ident K.minus) w = (kMinus == w) := isKeyword_ident K.hminus
theorem kw_values (w : Text) : isKeyword (ident K.values) w = (kValues == w) := isKeyword_ident K.hvalues
theorem kw_filter (w : Text) : isKeyword (ident K.filter) w = (kFilter == w) := isKeyword_ident K.hfilter
theorem kind_ident (t : Text) : (ident t).kind = .identifier := rfl

local macro "kw" : tactic => `(tactic| first | decide | (simp only [kw_optional, kw_union, kw_minus, kw_values, kw_filter, kind_ident] <;> decide))

/-- The result of reading `p` into the group `g`. -/
def Result (pre : List (Text × Text)) (p : Pat) (g : Group) (s : St) (rest : List Tok) (r : Except Err (Group × St)) : Prop :=
  ∃ g' s', r = .ok (g', s') ∧ s'.toks = rest ∧ Reads s s' p.vars ∧ ∀ N', Ext s'.names N' → g' = append g (p.meaning pre (num N'))

def GOk (pre : List (Text × Text)) (K : Spelling) (p : Pat) : Prop := ∀ n g s rest, (p.toks K).length < n → s.toks = p.toks K ++ rcurly :: rest →
  Result pre p g s rest (group pre n g s)

def TOk (pre : List (Text × Text)) (K : Spelling) (p : Pat) : Prop := ∀ m n subj pred loc g s rest, (p.toks K).length < m → (p.toks K).length < n → s.toks = p.toks K ++ rcurly :: rest →
  Result pre p g s rest ((tail pre m subj pred loc g s).bind fun q => group pre n q.1 q.2)

def AOk (pre : List (Text × Text)) (K : Spelling) (p : Pat) : Prop := ∀ g r, p = .alt g r → ∀ n gs s X, (p.toks K).length < n → s.toks = lcurly :: (g.toks K ++ rcurly :: (r.toks K ++ X)) →
  (∀ t, X.head? = some t → isKeyword t kUnion = false) →
  ∃ gs' s', alternatives pre n gs s = .ok (gs', s') ∧ s'.toks = X ∧ Reads s s' p.vars ∧ ∀ N', Ext s'.names N' → gs' = gs ++ p.alternatives pre (num N')

theorem tail_leave {s : St} {t : Tok} {r : List Tok} (hs : s.toks = t :: r) (h1 : t.kind ≠ .semicolon) (h2 : t.kind ≠ .comma) (h3 : t.kind ≠ .dot)
    (h4 : t.kind ≠ .identifier) (m : Nat) (subj pred : Elem) (loc : List (Text × Nat)) (g : Group) : tail pre (m + 1) subj pred loc g s = .ok (g, s) := by
  rw [tail, pop_cons hs]
  simp [h1, h2, h3, h4]

/-- A word at the start of a part. -/
theorem keyword_ne {t : Tok} (h : t.raw.map lower ∉ words) {w : Text} (hw : w ∈ words) : isKeyword t w = false := by
  unfold isKeyword
  rw [beq_eq_false_iff_ne]
  intro e
  exact h (by rw [e]; exact hw)

theorem more_length (more : List (Option SElem × SElem)) : more.length ≤ (moreToks more).length := by
  induction more with
  | nil => exact Nat.le_refl _
  | cons x l ih =>
    obtain ⟨a, o⟩ := x
    cases a <;> rw [moreToks] <;> simp <;> omega

theorem elem_length (e : SElem) : 1 ≤ e.toks.length := by
  cases e <;> simp [SElem.toks]

/-- A group in braces. -/
theorem inner {p : Pat} (h : GOk pre K p) {n : Nat} {s : St} {rest : List Tok} (hn : (p.toks K).length < n) (hs : s.toks = p.toks K ++ rcurly :: rest) :
    ∃ g' s', group pre n Group.empty s = .ok (g', s') ∧ s'.toks = rest ∧ Reads s s' p.vars ∧ ∀ N', Ext s'.names N' → g' = p.meaning pre (num N') := by
  obtain ⟨g', s', h1, h2, h3, h4⟩ := h n Group.empty s rest hn hs
  exact ⟨g', s', h1, h2, h3, fun N' hN => by rw [h4 N' hN, empty_append]⟩

theorem block_ok {s p o : SElem} {more : List (Option SElem × SElem)} {d : Bool} {rest : Pat} (hok : (Pat.block s p o more d rest).Ok pre false)
    (hg : d = true → GOk pre K rest) (ht : d = false → TOk pre K rest) : GOk pre K (.block s p o more d rest) := by
  intro n g st X hn hs
  rw [Pat.Ok] at hok
  obtain ⟨hs1, hp1, ho1, hm1, hst, hrest⟩ := hok
  obtain ⟨t, ts, e, hk⟩ := elem_head s
  obtain ⟨hw, -⟩ := hst t (by rw [e]; rfl)
  match n, hn with
  | n + 1, hn =>
  have hX : Stops ((if d = true then [Spec.dot] else []) ++ (rest.toks K ++ rcurly :: X)) := by
    cases d with
    | true => exact stops_cons _ _ (by decide) (by decide)
    | false => exact stops_pat hrest X
  have hs' : st.toks = s.toks ++ (p.toks ++ (o.toks ++ (moreToks more ++ ((if d = true then [Spec.dot] else []) ++ (rest.toks K ++ rcurly :: X))))) := by
    rw [hs, Pat.toks]; simp [List.append_assoc]
  obtain ⟨v1, s1, a1, a2, a3, a4⟩ := element_spec s hs1 [] st _ hs' (stops_elem _ _)
  obtain ⟨v2, s2, b1, b2, b3, b4⟩ := element_spec p hp1 [] s1 _ a2 (stops_elem _ _)
  obtain ⟨v3, s3, c1, c2, c3, c4⟩ := element_spec o ho1 [] s2 _ b2 (moreStops more hX)
  have hlen : s.toks.length + p.toks.length + o.toks.length + (moreToks more).length + (rest.toks K).length + (if d = true then 1 else 0) < n + 1 := by
    have : ((Pat.block s p o more d rest).toks K).length = s.toks.length + p.toks.length + o.toks.length + (moreToks more).length + (rest.toks K).length + (if d = true then 1 else 0) := by
      rw [Pat.toks]; cases d <;> simp <;> omega
    omega
  have l1 := elem_length s
  have l2 := elem_length p
  have l3 := elem_length o
  have l4 := more_length more
  obtain ⟨pred', g1, s4, d1, d2, d3, d4⟩ := more_spec [] v1 more v2 (g.addPattern (v1, v2, v3)) s3 _ n hm1 c2 hX (by omega)
  have hgroup : group pre (n + 1) g st = (tail pre n v1 v2 [] (g.addPattern (v1, v2, v3)) s3).bind fun q => group pre n q.1 q.2 := by
    rw [group, pop_cons (t := t) (r := ts ++ (p.toks ++ (o.toks ++ (moreToks more ++ ((if d = true then [Spec.dot] else []) ++ (rest.toks K ++ rcurly :: X))))))
      (by rw [hs', e]; rfl)]
    simp only
    rw [keyword_ne hw (by decide), keyword_ne hw (by decide), keyword_ne hw (by decide), keyword_ne hw (by decide), keyword_ne hw (by decide)]
    have hl : t.kind ≠ .lcurly := by rcases hk with hk | hk | hk | hk <;> rw [hk] <;> decide
    have hor : t.kind = .iri ∨ t.kind = .variable ∨ t.kind = .identifier ∨ t.kind = .string ∨ t.kind = .underscore ∨ t.kind = .colon ∨ t.kind = .lbracket
        ∨ t.kind = .anon := by rcases hk with hk | hk | hk | hk <;> simp [hk]
    simp only [Bool.false_eq_true, if_false, hl, if_pos hor, or_self, and_false]
    rw [a1]
    simp only [Except.bind]
    rw [b1]
    simp only [Except.bind]
    rw [c1]
  rw [hgroup, d1]
  have reads : Reads st s4 (s.vars ++ p.vars ++ o.vars ++ (more.flatMap fun x => (x.1.map SElem.vars).getD [] ++ x.2.vars)) := ((a3.trans b3).trans c3).trans d3
  have hg1 : ∀ N', Ext s4.names N' → g1 = append g (.mk ((s.meaning pre (num N'), p.meaning pre (num N'), o.meaning pre (num N'))
      :: moreTriples pre (num N') (s.meaning pre (num N')) (p.meaning pre (num N')) more) [] [] [] [] []) := by
    intro N' hN
    have h3 := d3.ext.trans hN
    have h2 := c3.ext.trans h3
    have h1 := b3.ext.trans h2
    rw [d4 N' hN, addPattern_eq, ← append_assoc, ← a4 N' h1, ← b4 N' h2, ← c4 N' h3]
    rfl
  have fin : ∀ r, Result pre rest g1 s4 X r → Result pre (.block s p o more d rest) g st X r := by
    rintro r ⟨g', s', e1, e2, e3, e4⟩
    refine ⟨g', s', e1, e2, (reads.trans e3).of_eq rfl, ?_⟩
    intro N' hN
    rw [e4 N' hN, hg1 N' (e3.ext.trans hN), Pat.meaning, append_assoc]
  cases hd : d with
  | true =>
    rw [hd] at d2 hlen
    have hm : ∃ m, n - more.length = m + 1 := ⟨n - more.length - 1, by simp at hlen; omega⟩
    obtain ⟨m, hm⟩ := hm
    have htail : tail pre (n - more.length) v1 pred' [] g1 s4 = .ok (g1, { s4 with toks := rest.toks K ++ rcurly :: X }) := by
      rw [hm, tail, pop_cons (by rw [d2]; rfl)]
      simp [Spec.dot]
    rw [htail]
    have := hg hd n g1 { s4 with toks := rest.toks K ++ rcurly :: X } X (by simp at hlen; omega) rfl
    rw [← hd]
    apply fin
    obtain ⟨g', s', e1, e2, e3, e4⟩ := this
    exact ⟨g', s', e1, e2, e3.from rfl rfl, e4⟩
  | false =>
    rw [hd] at d2 hlen
    rw [← hd]
    apply fin
    exact ht hd (n - more.length) n v1 pred' [] g1 s4 X (by simp at hlen; omega) (by simp at hlen; omega) d2

theorem main (K : Spelling) (p : Pat) : (p.Ok pre false → GOk pre K p) ∧ (p.Ok pre true → TOk pre K p) ∧ (p.AltsOk pre → AOk pre K p) := by
  have leave : ∀ {p : Pat}, p.Ok pre true → (∀ v r x, p ≠ .values v r x) → (∀ g r, p ≠ .optional g r) → (∀ g r, p ≠ .minus g r) → (∀ c ts d r, p ≠ .filter c ts d r) → (p.Ok pre false → GOk pre K p) →
      (∀ X, ∃ t r, p.toks K ++ rcurly :: X = t :: r ∧ t.kind ≠ .identifier) → TOk pre K p := by
    intro p hp h1 h2 h3 h4 hg hi m n subj pred loc g s rest hm hn hs
    obtain ⟨t, r, e, hk⟩ := hi rest
    obtain ⟨k1, k2, k3, _⟩ := head_ok hp rest t (by rw [e]; rfl)
    match m, hm with
    | m + 1, _ =>
    rw [tail_leave (hs.trans e) k2 k3 k1 hk]
    exact hg (ok_tail h1 hp h2 h3 h4) n g s rest hn hs
  induction p with
  | nil =>
    have hG : GOk pre K .nil := by
      intro n g s rest hn hs
      match n, hn with
      | n + 1, _ =>
      refine ⟨g, { s with toks := rest }, ?_, rfl, (Reads.refl s).same rfl rfl, fun _ _ => (append_empty g).symm⟩
      rw [group, pop_cons (by rw [hs]; rfl)]
      simp [rcurly, isKeyword, kSelect, kOptional]
    refine ⟨fun _ => hG, fun h => ?_, fun _ g r e => by cases e⟩
    exact leave h (by simp) (by simp) (by simp) (by simp) (fun _ => hG) fun X => ⟨rcurly, X, rfl, by decide⟩
  | block s p o more d rest ih =>
    have hG : (Pat.block s p o more d rest).Ok pre false → GOk pre K (.block s p o more d rest) := by
      intro hok
      have hr : rest.Ok pre (!d) := by rw [Pat.Ok] at hok; exact hok.2.2.2.2.2
      exact block_ok hok (fun e => ih.1 (by rw [e] at hr; exact hr)) (fun e => ih.2.1 (by rw [e] at hr; exact hr))
    refine ⟨hG, fun h => ?_, fun _ g r e => by cases e⟩
    refine leave h (by simp) (by simp) (by simp) (by simp) hG fun X => ?_
    rw [Pat.Ok] at h
    obtain ⟨t, ts, e, -⟩ := elem_head s
    exact ⟨t, _, by rw [Pat.toks, e]; rfl, (h.2.2.2.2.1 t (by rw [e]; rfl)).2 rfl⟩
  | optional g rest ihg ih =>
    have step : ∀ {tl : Bool} {n : Nat} {s : St} {X : List Tok}, g.Ok pre false → rest.Ok pre tl → ((Pat.optional g rest).toks K).length < n + 1 → s.toks = (Pat.optional g rest).toks K ++ rcurly :: X →
        ∃ g1 s1, group pre n Group.empty (pop (pop s).2).2 = .ok (g1, s1) ∧ skipDot s1 = s1 ∧ s1.toks = rest.toks K ++ rcurly :: X ∧ Reads s s1 g.vars ∧ (rest.toks K).length < n
          ∧ ∀ N', Ext s1.names N' → g1 = g.meaning pre (num N') := by
      intro tl n s X hg hr hn hs
      have hlen : ((Pat.optional g rest).toks K).length = (g.toks K).length + (rest.toks K).length + 3 := by rw [Pat.toks]; simp; omega
      have e1 : (pop (pop s).2).2 = { s with toks := g.toks K ++ rcurly :: (rest.toks K ++ rcurly :: X) } := by
        rw [pop_cons (s := s) (t := ident K.optional) (r := lcurly :: (g.toks K ++ rcurly :: (rest.toks K ++ rcurly :: X))) (by rw [hs, Pat.toks]; simp)]
        rfl
      rw [e1]
      obtain ⟨g1, s1, a1, a2, a3, a4⟩ := inner (ihg.1 hg) (n := n) (s := { s with toks := g.toks K ++ rcurly :: (rest.toks K ++ rcurly :: X) }) (by omega) rfl
      exact ⟨g1, s1, a1, skipDot_pat hr a2, a2, a3.from rfl rfl, by omega, a4⟩
    have hd : ∀ {s : St} {X : List Tok}, s.toks = (Pat.optional g rest).toks K ++ rcurly :: X → (pop s).1 = ident K.optional := by
      intro s X hs
      rw [pop_cons (t := ident K.optional) (by rw [hs, Pat.toks]; rfl)]
    refine ⟨?_, ?_, fun _ g r e => by cases e⟩
    · intro hok n g0 s X hn hs
      rw [Pat.Ok] at hok
      match n, hn with
      | n + 1, hn =>
      obtain ⟨g1, s1, a1, a2, a3, a4, a5, a6⟩ := step hok.1 hok.2 hn hs
      obtain ⟨g', s', b1, b2, b3, b4⟩ := ih.1 hok.2 n (g0.addOptional g1) s1 X a5 a3
      refine ⟨g', s', ?_, b2, a4.trans b3, ?_⟩
      · rw [group, hd hs]
        rw [if_neg (by kw), if_pos (by kw), a1]
        simp only [Except.bind]
        rw [a2]; exact b1
      · intro N' hN
        rw [b4 N' hN, addOptional_eq, a6 N' (b3.ext.trans hN), Pat.meaning, append_assoc]
    · intro hok m n subj pred loc g0 s X hm hn hs
      rw [Pat.Ok] at hok
      match m, hm with
      | m + 1, hm =>
      obtain ⟨g1, s1, a1, a2, a3, a4, a5, a6⟩ := step hok.1 hok.2 hm hs
      have hlen : ((Pat.optional g rest).toks K).length = (g.toks K).length + (rest.toks K).length + 3 := by rw [Pat.toks]; simp; omega
      obtain ⟨g', s', b1, b2, b3, b4⟩ := ih.2.1 hok.2 m n subj pred loc (g0.addOptional g1) s1 X a5 (by omega) a3
      refine ⟨g', s', ?_, b2, a4.trans b3, ?_⟩
      · rw [tail, hd hs]
        rw [if_neg (by kw), if_neg (by kw), if_neg (by kw), if_pos (by kw), if_pos (by kw), a1]
        simp only [Except.bind] at b1 ⊢
        rw [a2]; exact b1
      · intro N' hN
        rw [b4 N' hN, addOptional_eq, a6 N' (b3.ext.trans hN), Pat.meaning, append_assoc]
  | minus g rest ihg ih =>
    have step : ∀ {n : Nat} {s : St} {X : List Tok}, g.Ok pre false → ((Pat.minus g rest).toks K).length < n + 1 → s.toks = (Pat.minus g rest).toks K ++ rcurly :: X →
        (pop (pop s).2).1.kind = .lcurly ∧
        ∃ g1 s1, group pre n Group.empty (pop (pop s).2).2 = .ok (g1, s1) ∧ s1.toks = rest.toks K ++ rcurly :: X ∧ Reads s s1 g.vars ∧ (rest.toks K).length < n
          ∧ ∀ N', Ext s1.names N' → g1 = g.meaning pre (num N') := by
      intro n s X hg hn hs
      have hlen : ((Pat.minus g rest).toks K).length = (g.toks K).length + (rest.toks K).length + 3 := by rw [Pat.toks]; simp; omega
      have e1 : pop (pop s).2 = (lcurly, { s with toks := g.toks K ++ rcurly :: (rest.toks K ++ rcurly :: X) }) := by
        rw [pop_cons (s := s) (t := ident K.minus) (r := lcurly :: (g.toks K ++ rcurly :: (rest.toks K ++ rcurly :: X))) (by rw [hs, Pat.toks]; simp)]
        rfl
      rw [e1]
      obtain ⟨g1, s1, a1, a2, a3, a4⟩ := inner (ihg.1 hg) (n := n) (s := { s with toks := g.toks K ++ rcurly :: (rest.toks K ++ rcurly :: X) }) (by omega) rfl
      exact ⟨rfl, g1, s1, a1, a2, a3.from rfl rfl, by omega, a4⟩
    have hd : ∀ {s : St} {X : List Tok}, s.toks = (Pat.minus g rest).toks K ++ rcurly :: X → (pop s).1 = ident K.minus := by
      intro s X hs
      rw [pop_cons (t := ident K.minus) (by rw [hs, Pat.toks]; rfl)]
    refine ⟨?_, ?_, fun _ g r e => by cases e⟩
    · intro hok n g0 s X hn hs
      rw [Pat.Ok] at hok
      match n, hn with
      | n + 1, hn =>
      obtain ⟨a0, g1, s1, a1, a3, a4, a5, a6⟩ := step hok.1 hn hs
      obtain ⟨g', s', b1, b2, b3, b4⟩ := ih.1 hok.2 n (g0.addMinus g1) s1 X a5 a3
      refine ⟨g', s', ?_, b2, a4.trans b3, ?_⟩
      · rw [group, hd hs]
        rw [if_neg (by kw), if_neg (by kw), if_neg (by kw), if_pos (by kw), if_neg (by kw), if_neg (by kw), if_pos (by kw), if_pos a0, a1]
        simp only [Except.bind]
        exact b1
      · intro N' hN
        rw [b4 N' hN, addMinus_eq, a6 N' (b3.ext.trans hN), Pat.meaning, append_assoc]
    · intro hok m n subj pred loc g0 s X hm hn hs
      rw [Pat.Ok] at hok
      match m, hm with
      | m + 1, hm =>
      obtain ⟨a0, g1, s1, a1, a3, a4, a5, a6⟩ := step hok.1 hm hs
      have hlen : ((Pat.minus g rest).toks K).length = (g.toks K).length + (rest.toks K).length + 3 := by rw [Pat.toks]; simp; omega
      obtain ⟨g', s', b1, b2, b3, b4⟩ := ih.2.1 hok.2 m n subj pred loc (g0.addMinus g1) s1 X a5 (by omega) a3
      refine ⟨g', s', ?_, b2, a4.trans b3, ?_⟩
      · rw [tail, hd hs]
        rw [if_neg (by kw), if_neg (by kw), if_neg (by kw), if_pos (by kw), if_neg (by kw), if_neg (by kw), if_neg (by kw), if_neg (by kw), if_pos (by kw),
          if_pos a0, a1]
        simp only [Except.bind] at b1 ⊢
        exact b1
      · intro N' hN
        rw [b4 N' hN, addMinus_eq, a6 N' (b3.ext.trans hN), Pat.meaning, append_assoc]
  | values vars rows rest ih =>
    refine ⟨fun h => by rw [Pat.Ok] at h; exact absurd h.1 (by decide), ?_, fun _ g r e => by cases e⟩
    intro hok m n subj pred loc g0 s X hm hn hs
    rw [Pat.Ok] at hok
    match m, hm with
    | m + 1, hm =>
    have hlen : ((Pat.values vars rows rest).toks K).length = vars.length + (rowToks rows).length + (rest.toks K).length + 5 := by rw [Pat.toks]; simp; omega
    have hp : pop s = (ident K.values, { s with toks := lparen :: (vars.map (Tok.mk .variable) ++ rparen :: lcurly :: (rowToks rows ++ rcurly :: (rest.toks K ++ rcurly :: X))) }) := by
      rw [pop_cons]; rw [hs, Pat.toks]; simp
    obtain ⟨v, s1, a1, a2, a3, a4⟩ := values_spec (pre := pre) vars rows
      { s with toks := lparen :: (vars.map (Tok.mk .variable) ++ rparen :: lcurly :: (rowToks rows ++ rcurly :: (rest.toks K ++ rcurly :: X))) } _ hok.2.1 rfl
    obtain ⟨g', s', b1, b2, b3, b4⟩ := ih.2.1 hok.2.2 m n subj pred loc (g0.addValues v) s1 X (by omega) (by omega) a2
    refine ⟨g', s', ?_, b2, (a3.from (a := s) rfl rfl).trans b3, ?_⟩
    · rw [tail, hp]
      simp only
      rw [if_neg (by kw), if_neg (by kw), if_neg (by kw), if_pos (by kw), if_neg (by kw), if_neg (by kw), if_neg (by kw), if_pos (by kw), a1]
      simp only [Except.bind] at b1 ⊢
      exact b1
    · intro N' hN
      rw [b4 N' hN, addValues_eq, a4 N' (b3.ext.trans hN), Pat.meaning, append_assoc]
  | alt g rest ihg ih =>
    refine ⟨fun h => by rw [Pat.Ok] at h; exact h.elim, fun h => by rw [Pat.Ok] at h; exact h.elim, ?_⟩
    intro hok g0 r0 e n gs s X hn hs hX
    cases e
    rw [Pat.AltsOk] at hok
    have hlen : ((Pat.alt g rest).toks K).length = (g.toks K).length + (rest.toks K).length + 3 := by rw [Pat.toks]; simp; omega
    match n, hn with
    | n + 1, hn =>
    obtain ⟨g1, s1, a1, a2, a3, a4⟩ := inner (ihg.1 hok.1) (n := n) (s := { s with toks := g.toks K ++ rcurly :: (rest.toks K ++ X) }) (by omega) rfl
    have a3' : Reads s s1 g.vars := a3.from rfl rfl
    match rest, ih, hok.2, hs, a2, hlen with
    | .nil, _, _, hs, a2, _ =>
      refine ⟨gs ++ [g1], s1, ?_, a2, (a3'.of_eq (by simp [Pat.vars])), ?_⟩
      · rw [alternatives, pop_cons hs]
        simp only
        rw [if_neg (by kw), a1]
        simp only [Except.bind]
        rw [if_neg]
        rintro ⟨h1, h2⟩
        match X, hX, a2 with
        | [], _, a2 =>
          have : (pop s1).1.kind = .eof := by unfold pop; rw [a2]; rfl
          rw [this] at h1; cases h1
        | t :: X, hX, a2 =>
          rw [pop_cons a2] at h2
          have := hX t rfl
          simp only at h2
          rw [this] at h2; cases h2
      · intro N' hN
        rw [a4 N' hN, Pat.alternatives, Pat.alternatives]
        all_goals (intros; first | rfl | contradiction)
    | .alt g2 r2, ih, hok2, hs, a2, hlen =>
      have hl2 : ((Pat.alt g2 r2).toks K).length < n := by omega
      have a2' : s1.toks = ident K.union :: (lcurly :: (g2.toks K ++ rcurly :: (r2.toks K ++ X))) := by
        rw [a2, Pat.toks]; simp
      obtain ⟨gs', s', b1, b2, b3, b4⟩ := ih.2.2 hok2 g2 r2 rfl n (gs ++ [g1]) { s1 with toks := lcurly :: (g2.toks K ++ rcurly :: (r2.toks K ++ X)) } X hl2 rfl hX
      refine ⟨gs', s', ?_, b2, a3'.trans (b3.from rfl rfl), ?_⟩
      · rw [alternatives, pop_cons hs]
        simp only
        rw [if_neg (by kw), a1]
        simp only [Except.bind]
        rw [pop_cons a2']
        simp only
        rw [if_pos (by kw)]
        exact b1
      · intro N' hN
        rw [b4 N' hN, a4 N' (b3.ext.trans hN), Pat.alternatives, List.append_assoc]
        rfl
    | .block .., _, h, _, _, _ => rw [Pat.AltsOk] at h; exact h.elim; all_goals (intros; contradiction)
    | .optional .., _, h, _, _, _ => rw [Pat.AltsOk] at h; exact h.elim; all_goals (intros; contradiction)
    | .union .., _, h, _, _, _ => rw [Pat.AltsOk] at h; exact h.elim; all_goals (intros; contradiction)
    | .minus .., _, h, _, _, _ => rw [Pat.AltsOk] at h; exact h.elim; all_goals (intros; contradiction)
    | .values .., _, h, _, _, _ => rw [Pat.AltsOk] at h; exact h.elim; all_goals (intros; contradiction)
    | .nested .., _, h, _, _, _ => rw [Pat.AltsOk] at h; exact h.elim; all_goals (intros; contradiction)
    | .filter .., _, h, _, _, _ => rw [Pat.AltsOk] at h; exact h.elim; all_goals (intros; contradiction)
  | union g alts rest ihg iha ih =>
    have hG : (Pat.union g alts rest).Ok pre false → GOk pre K (.union g alts rest) := by
      intro hok n g0 s X hn hs
      rw [Pat.Ok] at hok
      obtain ⟨h1, h2, ⟨g2, r2, e⟩, h3⟩ := hok
      subst e
      have hlen : ((Pat.union g (.alt g2 r2) rest).toks K).length = (g.toks K).length + ((Pat.alt g2 r2).toks K).length + (rest.toks K).length + 2 := by rw [Pat.toks]; simp; omega
      match n, hn with
      | n + 1, hn =>
      have hp : pop s = (lcurly, { s with toks := g.toks K ++ rcurly :: ((Pat.alt g2 r2).toks K ++ (rest.toks K ++ rcurly :: X)) }) := by
        rw [pop_cons]; rw [hs, Pat.toks]; simp
      obtain ⟨g1, s1, a1, a2, a3, a4⟩ := inner (ihg.1 h1) (n := n) (s := { s with toks := g.toks K ++ rcurly :: ((Pat.alt g2 r2).toks K ++ (rest.toks K ++ rcurly :: X)) }) (by omega) rfl
      have a2' : s1.toks = ident K.union :: (lcurly :: (g2.toks K ++ rcurly :: (r2.toks K ++ (rest.toks K ++ rcurly :: X)))) := by
        rw [a2, Pat.toks]; simp
      obtain ⟨gs', s2, b1, b2, b3, b4⟩ := iha.2.2 h2 g2 r2 rfl n [g1] { s1 with toks := lcurly :: (g2.toks K ++ rcurly :: (r2.toks K ++ (rest.toks K ++ rcurly :: X))) }
        (rest.toks K ++ rcurly :: X) (by omega) rfl (fun t ht => (head_ok h3 X t ht).2.2.2.2.2)
      obtain ⟨g', s', c1, c2, c3, c4⟩ := ih.1 h3 n (g0.addUnion gs') s2 X (by omega) b2
      refine ⟨g', s', ?_, c2, (((a3.from (a := s) rfl rfl).trans (b3.from (a := s1) rfl rfl)).trans c3), ?_⟩
      · rw [group, hp]
        simp only
        rw [if_neg (by kw), if_neg (by kw), if_pos (by kw), a1]
        simp only [Except.bind]
        rw [pop_cons a2']
        simp only
        rw [if_pos (by kw), b1]
        simp only
        rw [skipDot_pat h3 b2]
        exact c1
      · intro N' hN
        rw [c4 N' hN, addUnion_eq, b4 N' (c3.ext.trans hN), a4 N' (b3.ext.trans (c3.ext.trans hN)), Pat.meaning, append_assoc]
        rfl
    refine ⟨hG, fun h => ?_, fun _ g r e => by cases e⟩
    exact leave h (by simp) (by simp) (by simp) (by simp) hG fun X => ⟨lcurly, _, by rw [Pat.toks]; rfl, by decide⟩
  | nested g rest ihg ih =>
    have hG : (Pat.nested g rest).Ok pre false → GOk pre K (.nested g rest) := by
      intro hok n g0 s X hn hs
      rw [Pat.Ok] at hok
      obtain ⟨h1, h2, h3⟩ := hok
      have hlen : ((Pat.nested g rest).toks K).length = (g.toks K).length + (rest.toks K).length + 2 := by rw [Pat.toks]; simp; omega
      match n, hn with
      | n + 1, hn =>
      have hp : pop s = (lcurly, { s with toks := g.toks K ++ rcurly :: (rest.toks K ++ rcurly :: X) }) := by
        rw [pop_cons]; rw [hs, Pat.toks]; simp
      obtain ⟨g1, s1, a1, a2, a3, a4⟩ := inner (ihg.1 h1) (n := n) (s := { s with toks := g.toks K ++ rcurly :: (rest.toks K ++ rcurly :: X) }) (by omega) rfl
      obtain ⟨g', s', c1, c2, c3, c4⟩ := ih.1 h3 n (g0.merge g1) s1 X (by omega) a2
      refine ⟨g', s', ?_, c2, (a3.from (a := s) rfl rfl).trans c3, ?_⟩
      · rw [group, hp]
        simp only
        rw [if_neg (by kw), if_neg (by kw), if_pos (by kw), a1]
        simp only [Except.bind]
        rw [if_neg, skipDot_pat h3 a2]
        · exact c1
        · rintro ⟨-, h⟩
          obtain ⟨t, r, e⟩ : ∃ t r, s1.toks = t :: r := by rw [a2]; cases rest.toks K <;> exact ⟨_, _, rfl⟩
          rw [pop_cons e] at h
          simp only at h
          rw [(head_ok h3 X t (by rw [← a2, e]; rfl)).2.2.2.2.2] at h
          cases h
      · intro N' hN
        rw [c4 N' hN, a4 N' (c3.ext.trans hN), merge_append _ _ h2, Pat.meaning, append_assoc]
    refine ⟨hG, fun h => ?_, fun _ g r e => by cases e⟩
    exact leave h (by simp) (by simp) (by simp) (by simp) hG fun X => ⟨lcurly, _, by rw [Pat.toks]; rfl, by decide⟩
  | filter c ts d rest ih =>
    have step : ∀ {tl : Bool} {s : St} {X : List Tok}, Constraint pre c ts → rest.Ok pre tl → s.toks = (Pat.filter c ts d rest).toks K ++ rcurly :: X →
        (pop s).1 = ident K.filter ∧ ∃ c' s', parseFilter pre (pop s).2 = .ok (c', s') ∧ s'.toks = rest.toks K ++ rcurly :: X ∧ Reads s s' c.vars
          ∧ ∀ N', Ext s'.names N' → c' = c.meaning pre (num N') := by
      intro tl s X hc hr hs
      rw [pop_cons (s := s) (t := ident K.filter) (r := ts ++ (point d ++ (rest.toks K ++ rcurly :: X))) (by rw [hs, Pat.toks]; simp)]
      obtain ⟨c', s', a1, a2, a3, a4⟩ := parseFilter_ok hc (s := { s with toks := ts ++ (point d ++ (rest.toks K ++ rcurly :: X)) }) (rest := rest.toks K ++ rcurly :: X) rfl
        (fun t ht => ⟨head_lparen hr X t ht, (head_ok hr X t ht).2.2.2.1, (head_ok hr X t ht).2.2.2.2.1⟩) (fun t ht => (head_ok hr X t ht).1)
      exact ⟨rfl, c', s', a1, a2, a3.from rfl rfl, a4⟩
    have hlen : ((Pat.filter c ts d rest).toks K).length ≥ (rest.toks K).length + 1 := by rw [Pat.toks]; simp; omega
    refine ⟨?_, ?_, fun _ g r e => by cases e⟩
    · intro hok n g0 s X hn hs
      rw [Pat.Ok] at hok
      match n, hn with
      | n + 1, hn =>
      obtain ⟨hd, c', s1, a1, a2, a3, a4⟩ := step hok.1 hok.2 hs
      obtain ⟨g', s', b1, b2, b3, b4⟩ := ih.1 hok.2 n (g0.addFilter c') s1 X (by omega) a2
      refine ⟨g', s', ?_, b2, a3.trans b3, ?_⟩
      · rw [group, hd]
        rw [if_neg (by kw), if_neg (by kw), if_neg (by kw), if_pos (by kw), if_pos (by kw), a1]
        simp only [Except.bind]
        exact b1
      · intro N' hN
        rw [b4 N' hN, addFilter_eq, a4 N' (b3.ext.trans hN), Pat.meaning, append_assoc]
    · intro hok m n subj pred loc g0 s X hm hn hs
      rw [Pat.Ok] at hok
      match m, hm with
      | m + 1, hm =>
      obtain ⟨hd, c', s1, a1, a2, a3, a4⟩ := step hok.1 hok.2 hs
      obtain ⟨g', s', b1, b2, b3, b4⟩ := ih.2.1 hok.2 m n subj pred loc (g0.addFilter c') s1 X (by omega) (by omega) a2
      refine ⟨g', s', ?_, b2, a3.trans b3, ?_⟩
      · rw [tail, hd]
        rw [if_neg (by kw), if_neg (by kw), if_neg (by kw), if_pos (by kw), if_neg (by kw), if_pos (by kw), a1]
        simp only [Except.bind] at b1 ⊢
        exact b1
      · intro N' hN
        rw [b4 N' hN, addFilter_eq, a4 N' (b3.ext.trans hN), Pat.meaning, append_assoc]

end Trident.Sparql.Parse
