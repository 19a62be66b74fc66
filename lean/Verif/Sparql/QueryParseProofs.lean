import Verif.Sparql.SortKeys
import Verif.Props.Expr
import Verif.Sparql.ParserMain
/-! # Whole queries: parsing -/
namespace Trident.Sparql.Parse

open Lex Spec

variable {pre : List (Text × Text)}

theorem nextWord_ident {s : St} {w : Text} {r : List Tok} (h : s.toks = ident w :: r) {k k' : Text} (hw : w.map lower = k') : nextWord s k = (k' == k) := by
  unfold nextWord
  rw [pop_cons h]
  simp only
  rw [isKeyword_ident hw]
  simp [ident]

theorem nextWord_other {s : St} {t : Tok} {r : List Tok} (h : s.toks = t :: r) (hk : t.kind ≠ .identifier) (k : Text) : nextWord s k = false := by
  unfold nextWord
  rw [pop_cons h]
  simp [hk]

theorem nextWord_nil {s : St} (h : s.toks = []) (k : Text) : nextWord s k = false := by
  unfold nextWord pop
  rw [h]
  simp

/-! ## Numbers -/

theorem number_of {t : Text} {n : Nat} (h : naturalOf t = some (n : Int)) (hn : n < 2 ^ 31) : number t = .ok n := by
  unfold naturalOf at h
  split at h
  · next hd =>
    have key : ∀ (l : Text) (k : Nat), (∀ d ∈ l, 48 ≤ d ∧ d ≤ 57) → l.foldl (fun (n : Int) (d : Nat) => 10 * n + ((d : Int) - 48)) (k : Int) = ((l.foldl (fun n c => 10 * n + (c - 48)) k : Nat) : Int) := by
      intro l
      induction l with
      | nil => intro k _; rfl
      | cons d l ih =>
        intro k hk
        have := hk d (by simp)
        rw [List.foldl_cons, List.foldl_cons, ← ih _ fun d h => hk d (List.mem_cons_of_mem _ h)]
        congr 1
        omega
    have h0 := key t 0 hd.2
    simp only [Option.some.injEq] at h
    rw [show ((0 : Nat) : Int) = 0 from rfl, h] at h0
    have h1 : t.foldl (fun n c => 10 * n + (c - 48)) 0 = n := by omega
    unfold number
    rw [h1]
    simp [hn]
  · cases h

/-! ## LIMIT and OFFSET -/

theorem limit_step {W : QueryWords} {t : Text} {n : Nat} (h : naturalOf t = some (n : Int)) (h0 : 0 < n) (hn : n < 2 ^ 31) {s : St} {r : List Tok}
    (hs : s.toks = ident W.limit :: ⟨.integer, t⟩ :: r) (k : Nat) (o : Nat) : limitOffset (k + 1) none o s = limitOffset k (some n) o { s with toks := r } := by
  rw [limitOffset]
  rw [nextWord_ident hs W.hlimit, pop_cons hs]
  simp only
  rw [if_pos (by decide), if_neg (by simp), pop_cons (by rfl)]
  simp only
  rw [if_neg (by simp), number_of h hn]
  simp only [Except.bind]
  rw [if_neg (by omega)]

theorem offset_step {W : QueryWords} {t : Text} {m : Nat} (h : naturalOf t = some (m : Int)) (hm : m < 2 ^ 31) {s : St} {r : List Tok}
    (hs : s.toks = ident W.offset :: ⟨.integer, t⟩ :: r) (k : Nat) (l : Option Nat) (o : Nat) : limitOffset (k + 1) l o s = limitOffset k l m { s with toks := r } := by
  rw [limitOffset]
  rw [nextWord_ident hs W.hoffset, nextWord_ident hs W.hoffset, pop_cons hs]
  simp only
  rw [if_neg (by decide), if_pos (by decide), pop_cons (by rfl)]
  simp only
  rw [if_neg (by simp), number_of h hm]
  rfl

/-- The words that can come after a group. -/
def afterWords : List Text := [kGroup, kHaving, kOrder, kLimit, kOffset]

/-- None of these words comes next. -/
def NoWord (tail : List Tok) : Prop := ∀ t ∈ tail.head?, t.kind = .identifier → t.raw.map lower ∉ afterWords

theorem nextWord_noWord {s : St} (h : NoWord s.toks) {k : Text} (hk : k ∈ afterWords) : nextWord s k = false := by
  match hs : s.toks with
  | [] => exact nextWord_nil hs k
  | t :: r =>
    rw [hs] at h
    by_cases ht : t.kind = .identifier
    · have hne := h t rfl ht
      unfold nextWord
      rw [pop_cons hs]
      simp only [ht, decide_true, Bool.true_and]
      unfold isKeyword
      rw [beq_eq_false_iff_ne]
      rintro rfl
      exact hne hk
    · exact nextWord_other hs ht k

theorem end_step {s : St} (hs : NoWord s.toks) (k : Nat) (l : Option Nat) (o : Nat) : limitOffset (k + 1) l o s = .ok (l, o, s) := by
  rw [limitOffset]
  rw [nextWord_noWord hs (by decide), nextWord_noWord hs (by decide)]
  rfl

theorem slice_spec {W : QueryWords} {slice tail : List Tok} {l : Option Nat} {o : Nat} (h : SliceToks W slice l o) (hstop : NoWord tail) {s : St} (hs : s.toks = slice ++ tail) :
    limitOffset (s.toks.length + 1) none 0 s = .ok (l, o, { s with toks := tail }) ∧ nextWord s kGroup = false ∧ nextWord s kHaving = false ∧ nextWord s kOrder = false := by
  rw [hs]
  cases h with
  | none =>
    have hst : NoWord s.toks := by rw [hs]; exact hstop
    refine ⟨?_, nextWord_noWord hst (by decide), nextWord_noWord hst (by decide), nextWord_noWord hst (by decide)⟩
    cases s
    simp only [List.nil_append] at hs
    subst hs
    exact end_step hstop _ _ _
  | limit h h0 hn =>
    refine ⟨?_, by rw [nextWord_ident hs W.hlimit]; decide, by rw [nextWord_ident hs W.hlimit]; decide, by rw [nextWord_ident hs W.hlimit]; decide⟩
    rw [limit_step h h0 hn hs, List.cons_append, List.length_cons, end_step (by exact hstop)]
    rfl
  | offset h hm =>
    refine ⟨?_, by rw [nextWord_ident hs W.hoffset]; decide, by rw [nextWord_ident hs W.hoffset]; decide, by rw [nextWord_ident hs W.hoffset]; decide⟩
    rw [offset_step h hm hs, List.cons_append, List.length_cons, end_step (by exact hstop)]
    rfl
  | limitOffset h h0 hn h' hm =>
    refine ⟨?_, by rw [nextWord_ident hs W.hlimit]; decide, by rw [nextWord_ident hs W.hlimit]; decide, by rw [nextWord_ident hs W.hlimit]; decide⟩
    rw [limit_step h h0 hn hs, List.cons_append, List.length_cons, offset_step (W := W) h' hm (by rfl), List.cons_append, List.length_cons, end_step (by exact hstop)]
    rfl
  | offsetLimit h h0 hn h' hm =>
    refine ⟨?_, by rw [nextWord_ident hs W.hoffset]; decide, by rw [nextWord_ident hs W.hoffset]; decide, by rw [nextWord_ident hs W.hoffset]; decide⟩
    rw [offset_step h' hm hs, List.cons_append, List.length_cons, limit_step (W := W) h h0 hn (by rfl), List.cons_append, List.length_cons, end_step (by exact hstop)]
    rfl

/-! ## ORDER BY -/

/-- LIMIT or OFFSET comes next, or nothing. -/
def AfterKeys (rest : List Tok) : Prop := rest = [] ∨ ∃ w r, rest = ident w :: r ∧ (w.map lower = kLimit ∨ w.map lower = kOffset)

theorem slice_after {W : QueryWords} {slice : List Tok} {l : Option Nat} {o : Nat} (h : SliceToks W slice l o) : AfterKeys slice := by
  cases h with
  | none => exact .inl rfl
  | limit => exact .inr ⟨_, _, rfl, .inl W.hlimit⟩
  | offset => exact .inr ⟨_, _, rfl, .inr W.hoffset⟩
  | limitOffset => exact .inr ⟨_, _, rfl, .inl W.hlimit⟩
  | offsetLimit => exact .inr ⟨_, _, rfl, .inr W.hoffset⟩

theorem orderKeys_end {rest : List Tok} (h : AfterKeys rest) {s : St} (hs : s.toks = rest) (n : Nat) : orderKeys pre (n + 1) s = .ok ([], s) := by
  rcases h with rfl | ⟨w, r, rfl, hw⟩
  · rw [orderKeys]
    have : (pop s).1.kind = .eof := by unfold pop; rw [hs]
    simp only [this]
    rfl
  · rw [orderKeys, pop_cons hs]
    simp only
    rw [if_pos (by rfl), if_pos]
    rcases hw with hw | hw
    · rw [isKeyword_ident hw, isKeyword_ident hw]; decide
    · rw [isKeyword_ident hw, isKeyword_ident hw]; decide

/-- `(?x)` -/
theorem key_bracketed {x : Text} {s : St} {n : Nat} (hn : 1 < n) {rest : List Tok} (hs : s.toks = lparen :: ⟨.variable, x⟩ :: rparen :: rest) :
    ∃ i s', bracketed (expression pre (primary pre n)) s = .ok (.var i, s') ∧ s'.toks = rest ∧ Reads s s' [x] ∧ find s'.names x = some i := by
  have hd : Derives pre .or (.elem (.var x)) [⟨.variable, x⟩] := .orUp (.andUp (.relUp (.addUp (.mulUp (.unaryUp (.elem (e := .var x) trivial nofun nofun))))))
  obtain ⟨c, s', h1, h2, h3, h4⟩ := bracketed_ok (Motive.or (derives hd) (n := n) hn) (s := s) (rest := rest) hs
  have e := h4 s'.names (Ext.refl _)
  obtain ⟨i, hi⟩ := Option.isSome_iff_exists.1 (h3.declared x (by simp [SCond.vars, SElem.vars]))
  refine ⟨i, s', ?_, h2, h3, hi⟩
  rw [h1, e]
  simp [SCond.meaning, SElem.meaning, num, hi, ofElem]

theorem orderKeys_spec (O : OrderWords) : ∀ (ks : List SKey) (n : Nat) (s : St) (rest : List Tok), s.toks = ks.flatMap (SKey.toks O) ++ rest → AfterKeys rest → ks.length < n →
    ∃ is s', orderKeys pre n s = .ok (is, s') ∧ s'.toks = rest ∧ Reads s s' (ks.map SKey.name) ∧ ∀ N', Ext s'.names N' → is = ks.map (SKey.meaning (num N'))
  | [], n + 1, s, rest, hs, hr, _ => ⟨[], s, orderKeys_end hr hs n, hs, Reads.refl s, fun _ _ => rfl⟩
  | .plain x :: ks, n + 1, s, rest, hs, hr, hn => by
    have hs' : s.toks = ⟨.variable, x⟩ :: (ks.flatMap (SKey.toks O) ++ rest) := hs
    obtain ⟨i, s1, h1, h2, h3, h4⟩ := nameVariable_spec { s with toks := ks.flatMap (SKey.toks O) ++ rest } x
    obtain ⟨is, s', a1, a2, a3, a4⟩ := orderKeys_spec O ks n s1 rest h2 hr (Nat.lt_of_succ_lt_succ hn)
    refine ⟨(.var i, false) :: is, s', ?_, a2, (h4.from (a := s) rfl rfl).trans a3, ?_⟩
    · rw [orderKeys, pop_cons hs']
      simp only
      rw [if_neg (by simp), if_pos trivial, h1]
      simp only
      rw [a1]
      rfl
    · intro N' hN
      rw [List.map_cons, a4 N' hN]
      congr 1
      simp only [SKey.meaning, num]
      rw [hN x i (a3.ext x i h3)]
      rfl
  | .asc x :: ks, n + 1, s, rest, hs, hr, hn => by
    have hs' : s.toks = ident O.asc :: lparen :: ⟨.variable, x⟩ :: rparen :: (ks.flatMap (SKey.toks O) ++ rest) := hs
    obtain ⟨i, s1, h1, h2, h3, h4⟩ := key_bracketed (pre := pre) (x := x) (n := s.toks.length + 1) (by rw [hs']; simp) (s := { s with toks := lparen :: ⟨.variable, x⟩ :: rparen :: (ks.flatMap (SKey.toks O) ++ rest) }) rfl
    obtain ⟨is, s', a1, a2, a3, a4⟩ := orderKeys_spec O ks n s1 rest h2 hr (Nat.lt_of_succ_lt_succ hn)
    refine ⟨(.expr (.var i), false) :: is, s', ?_, a2, (h3.from (a := s) rfl rfl).trans a3, ?_⟩
    · rw [orderKeys, pop_cons hs']
      simp only
      have hk : ∀ k, isKeyword (ident O.asc) k = (kAsc == k) := fun k => isKeyword_ident O.hasc
      rw [if_pos (by rfl), hk, hk, hk, hk, if_neg (by decide), if_pos (by decide), h1]
      simp only [Except.bind]
      rw [a1]
      rfl
    · intro N' hN
      rw [List.map_cons, a4 N' hN]
      congr 1
      simp only [SKey.meaning, num]
      rw [hN x i (a3.ext x i h4)]
      rfl
  | .desc x :: ks, n + 1, s, rest, hs, hr, hn => by
    have hs' : s.toks = ident O.desc :: lparen :: ⟨.variable, x⟩ :: rparen :: (ks.flatMap (SKey.toks O) ++ rest) := hs
    obtain ⟨i, s1, h1, h2, h3, h4⟩ := key_bracketed (pre := pre) (x := x) (n := s.toks.length + 1) (by rw [hs']; simp) (s := { s with toks := lparen :: ⟨.variable, x⟩ :: rparen :: (ks.flatMap (SKey.toks O) ++ rest) }) rfl
    obtain ⟨is, s', a1, a2, a3, a4⟩ := orderKeys_spec O ks n s1 rest h2 hr (Nat.lt_of_succ_lt_succ hn)
    refine ⟨(.expr (.var i), true) :: is, s', ?_, a2, (h3.from (a := s) rfl rfl).trans a3, ?_⟩
    · rw [orderKeys, pop_cons hs']
      simp only
      have hk : ∀ k, isKeyword (ident O.desc) k = (kDesc == k) := fun k => isKeyword_ident O.hdesc
      rw [if_pos (by rfl), hk, hk, hk, hk, if_neg (by decide), if_pos (by decide), h1]
      simp only [Except.bind]
      rw [a1]
      rfl
    · intro N' hN
      rw [List.map_cons, a4 N' hN]
      congr 1
      simp only [SKey.meaning, num]
      rw [hN x i (a3.ext x i h4)]
      rfl

theorem flatMap_long (O : OrderWords) : ∀ ks : List SKey, ks.length ≤ (ks.flatMap (SKey.toks O)).length
  | [] => Nat.le_refl _
  | k :: ks => by
    have := flatMap_long O ks
    rw [List.flatMap_cons, List.length_append, List.length_cons]
    cases k <;> simp only [SKey.toks, List.length_cons, List.length_nil] <;> omega

/-- What comes after the group. -/
theorem after_spec {W : QueryWords} {O : OrderWords} {slice tail : List Tok} {l : Option Nat} {o : Nat} (h : SliceToks W slice l o) (hstop : NoWord tail) (ks : List SKey)
    (hend : ks ≠ [] → tail = []) {s : St} (hs : s.toks = orderToks O ks ++ (slice ++ tail)) :
    nextWord s kGroup = false ∧ nextWord s kHaving = false ∧ ∃ is s', orderBy pre s = .ok (is, s') ∧ Reads s s' (ks.map SKey.name) ∧
      (∀ N', Ext s'.names N' → is = ks.map (SKey.meaning (num N'))) ∧ limitOffset (s'.toks.length + 1) none 0 s' = .ok (l, o, { s' with toks := tail }) := by
  match ks, hend with
  | [], _ =>
    obtain ⟨c1, c2, c3, c4⟩ := slice_spec h hstop hs
    refine ⟨c2, c3, [], s, ?_, Reads.refl s, fun _ _ => rfl, c1⟩
    unfold orderBy
    rw [c4]
    rfl
  | k :: ks, hend =>
    have ht := hend nofun
    subst ht
    have hs' : s.toks = ident O.order :: ident O.by_ :: ((k :: ks).flatMap (SKey.toks O) ++ (slice ++ [])) := hs
    have ho : O.order.map lower = kOrder := O.horder
    refine ⟨by rw [nextWord_ident hs' ho]; decide, by rw [nextWord_ident hs' ho]; decide, ?_⟩
    obtain ⟨is, s', a1, a2, a3, a4⟩ := orderKeys_spec (pre := pre) O (k :: ks) (s.toks.length + 1) { s with toks := (k :: ks).flatMap (SKey.toks O) ++ (slice ++ []) } (slice ++ []) rfl
      (by rw [List.append_nil]; exact slice_after h) (by
        have := flatMap_long O (k :: ks)
        rw [hs', List.length_cons (as := _ :: _), List.length_cons (as := _ ++ _), List.length_append]
        omega)
    refine ⟨is, s', ?_, a3.from rfl rfl, a4, (slice_spec h hstop a2).1⟩
    unfold orderBy
    rw [nextWord_ident hs' ho, if_pos (by decide), pop_cons hs']
    simp only
    rw [nextWord_ident (by rfl) O.hby, if_pos (by decide), pop_cons (by rfl)]
    exact a1

/-! ## Projection -/

/-- The projection ends here: WHERE or a brace. -/
def Ends (rest : List Tok) : Prop := ∃ t r, rest = t :: r ∧ (t = lcurly ∨ (t.kind = .identifier ∧ (t.raw = kWhere ∨ t.raw = capsWhere)))

theorem projection_end {rest : List Tok} (h : Ends rest) {s : St} (hs : s.toks = rest) (k : Nat) : projection pre (k + 1) false s = .ok ([], s) := by
  obtain ⟨t, r, rfl, h⟩ := h
  rw [projection, pop_cons hs]
  simp only
  rcases h with rfl | ⟨h1, h2⟩
  · simp [lcurly]
  · rw [if_neg (by rw [h1]; simp), if_neg (by rw [h1]; simp), if_neg (by rw [h1]; simp), if_neg]
    · rfl
    · rintro ⟨_, h3, h4⟩
      exact h2.elim h3 h4

theorem projection_names : ∀ (l : List Text) (n : Nat) (first : Bool) (s : St) (rest : List Tok), s.toks = l.map (Tok.mk .variable) ++ rest → Ends rest → l.length < n → (first = true → l ≠ []) →
    ∃ is s', projection pre n first s = .ok (is, s') ∧ s'.toks = rest ∧ Reads s s' l ∧ is.length = l.length ∧ ∀ N', Ext s'.names N' → is = l.map (num N')
  | [], n + 1, first, s, rest, hs, hr, _, hf => by
    cases first with
    | true => exact absurd rfl (hf rfl)
    | false => exact ⟨[], s, projection_end hr hs n, hs, Reads.refl s, rfl, fun _ _ => rfl⟩
  | x :: l, n + 1, first, s, rest, hs, hr, hn, _ => by
    obtain ⟨i, s1, h1, h2, h3, h4⟩ := nameVariable_spec { s with toks := l.map (Tok.mk .variable) ++ rest } x
    obtain ⟨is, s', a1, a2, a3, a4, a5⟩ := projection_names l n false s1 rest h2 hr (Nat.lt_of_succ_lt_succ hn) nofun
    refine ⟨i :: is, s', ?_, a2, (h4.from (a := s) rfl rfl).trans a3, by simp [a4], ?_⟩
    · have hs' : s.toks = ⟨.variable, x⟩ :: (l.map (Tok.mk .variable) ++ rest) := hs
      rw [projection, pop_cons hs']
      simp only
      rw [if_pos trivial, h1]
      simp only
      rw [a1]
      rfl
    · intro N' hN
      rw [List.map_cons, a5 N' hN]
      congr 1
      unfold num
      rw [hN x i (a3.ext x i h3)]
      rfl

/-! ## WHERE -/

theorem where_spec {K : Spelling} {p : Pat} (hp : p.Ok pre false) {W : Option Text} (hW : ∀ w ∈ W, w = kWhere ∨ w = capsWhere) {s : St} {rest : List Tok}
    (hs : s.toks = (W.toList.map ident) ++ lcurly :: (p.toks K ++ rcurly :: rest)) :
    ∃ g s', parseWhere pre s = .ok (g, s') ∧ s'.toks = rest ∧ Reads s s' p.vars ∧ ∀ N', Ext s'.names N' → g = p.meaning pre (num N') := by
  unfold parseWhere
  simp only
  cases W with
  | none =>
    have hs' : s.toks = lcurly :: (p.toks K ++ rcurly :: rest) := hs
    rw [pop_cons hs']
    simp only
    rw [if_pos (by rfl), hs']
    obtain ⟨g, s', h1, h2, h3, h4⟩ := inner ((main K p).1 hp) (n := (lcurly :: (p.toks K ++ rcurly :: rest)).length + 1) (s := { s with toks := p.toks K ++ rcurly :: rest }) (rest := rest) (by simp; omega) rfl
    exact ⟨g, s', h1, h2, h3.from rfl rfl, h4⟩
  | some w =>
    have hs' : s.toks = ident w :: lcurly :: (p.toks K ++ rcurly :: rest) := hs
    have hw : w.map lower = kWhere := by
      rcases hW w rfl with rfl | rfl <;> decide
    rw [pop_cons hs']
    simp only
    rw [if_neg (by simp [ident]), if_pos ⟨rfl, by rw [isKeyword_ident hw]; decide⟩, pop_cons (by rfl)]
    simp only
    rw [if_pos (by rfl), hs']
    obtain ⟨g, s', h1, h2, h3, h4⟩ := inner ((main K p).1 hp) (n := (ident w :: lcurly :: (p.toks K ++ rcurly :: rest)).length + 1) (s := { s with toks := p.toks K ++ rcurly :: rest }) (rest := rest) (by simp; omega) rfl
    exact ⟨g, s', h1, h2, h3.from rfl rfl, h4⟩

/-! ## `*` -/

theorem textLe_total : ∀ a b : Text, (textLe a b || textLe b a) = true
  | [], _ => by simp [textLe]
  | _ :: _, [] => by simp [textLe]
  | a :: s, b :: t => by
    have ih := textLe_total s t
    simp only [textLe]
    by_cases h1 : a < b
    · simp [h1]
    · by_cases h2 : b < a
      · simp [h2]
      · simpa [h1, h2] using ih

theorem textLe_trans : ∀ {a b c : Text}, textLe a b = true → textLe b c = true → textLe a c = true
  | [], _, _, _, _ => by simp [textLe]
  | _ :: _, [], _, h, _ => by simp [textLe] at h
  | _ :: _, _ :: _, [], _, h => by simp [textLe] at h
  | a :: s, b :: t, c :: u, h1, h2 => by
    simp only [textLe] at *
    split at h1
    · split at h2
      · rw [if_pos (by omega)]
      · split at h2
        · cases h2
        · rw [if_pos (by omega)]
    · split at h1
      · cases h1
      · split at h2
        · rw [if_pos (by omega)]
        · split at h2
          · cases h2
          · rw [if_neg (by omega), if_neg (by omega)]
            exact textLe_trans h1 h2

theorem textLt_of_le : ∀ {a b : Text}, textLe a b = true → a ≠ b → textLt a b
  | [], [], _, h => absurd rfl h
  | [], _ :: _, _, _ => trivial
  | _ :: _, [], h, _ => by simp [textLe] at h
  | a :: s, b :: t, h, hne => by
    simp only [textLe] at h
    simp only [textLt]
    split at h
    · next h1 => exact .inl h1
    · split at h
      · cases h
      · have hab : a = b := by omega
        refine .inr ⟨hab, textLt_of_le h fun e => hne (by rw [hab, e])⟩

theorem find_of_nodup {N : List (Text × Nat)} (h : (N.map (·.1)).Nodup) : ∀ p ∈ N, find N p.1 = some p.2 := by
  induction N with
  | nil => exact nofun
  | cons a l ih =>
    intro p hp
    rw [List.map_cons, List.nodup_cons] at h
    rcases List.mem_cons.1 hp with rfl | hp
    · simp [find]
    · have hne : a.1 ≠ p.1 := fun e => h.1 (e ▸ List.mem_map_of_mem hp)
      rw [← ih h.2 p hp]
      simp [find, hne]

theorem find_mem {N : List (Text × Nat)} {x : Text} (h : (find N x).isSome = true) : x ∈ N.map (·.1) := by
  unfold find at h
  rw [Option.isSome_map] at h
  obtain ⟨p, hp⟩ := Option.isSome_iff_exists.1 h
  have h1 := List.find?_some hp
  have h2 := List.mem_of_find?_eq_some hp
  simp only [beq_iff_eq] at h1
  exact List.mem_map.2 ⟨p, h2, h1⟩

theorem allVariables_spec {s : St} {vars : List Text} (hr : Reads ⟨[], [], 0⟩ s vars) :
    ∃ columns : List Text, allVariables s = columns.map (num s.names) ∧ columns.Pairwise textLt ∧ ∀ x, x ∈ columns ↔ x ∈ vars := by
  have hnd := hr.nodup .nil
  have hperm := List.mergeSort_perm s.names fun a b => textLe a.1 b.1
  refine ⟨(s.names.mergeSort fun a b => textLe a.1 b.1).map (·.1), ?_, ?_, ?_⟩
  · unfold allVariables
    rw [List.map_map]
    refine List.map_congr_left fun p hp => ?_
    rw [Function.comp_apply]
    unfold num
    rw [find_of_nodup hnd p (hperm.mem_iff.1 hp)]
    rfl
  · have hsorted := List.pairwise_mergeSort (le := fun (a b : Text × Nat) => textLe a.1 b.1) (fun a b c => textLe_trans) (fun a b => textLe_total a.1 b.1) s.names
    have hnd' : ((s.names.mergeSort fun a b => textLe a.1 b.1).map (·.1)).Nodup := (hperm.map _).nodup_iff.2 hnd
    rw [List.pairwise_map]
    rw [List.Nodup, List.pairwise_map] at hnd'
    exact (hsorted.and hnd').imp fun h => textLt_of_le h.1 h.2
  · intro x
    rw [(hperm.map _).mem_iff]
    constructor
    · intro hx
      obtain ⟨p, hp, rfl⟩ := List.mem_map.1 hx
      exact (hr.only p hp).elim nofun id
    · intro hx
      exact find_mem (hr.declared x hx)

/-! ## Queries -/

/-- The number of a variable has its name. -/
theorem nameOf_num {s : St} (hi : Inv s) (hn : (s.names.map (·.1)).Nodup) {x : Text} (hx : (find s.names x).isSome) : nameOf s.names (num s.names x) = x := by
  obtain ⟨i, hf⟩ := Option.isSome_iff_exists.1 hx
  have hnum : num s.names x = i := by simp [num, hf]
  obtain ⟨p, hp, hpx⟩ := List.mem_map.1 (find_mem hx)
  have hpi : p.2 = i := by
    have := find_of_nodup hn p hp
    rw [hpx, hf] at this
    exact (Option.some.inj this).symm
  rw [hnum]
  unfold nameOf
  cases hq : s.names.find? fun p => p.2 == i with
  | none =>
    have := List.find?_eq_none.1 hq p hp
    simp [hpi] at this
  | some r =>
    have h1 := List.find?_some hq
    have h2 := List.mem_of_find?_eq_some hq
    simp only [beq_iff_eq] at h1
    simp only [Option.map_some, Option.getD_some]
    exact hi.2 _ _ i (h1 ▸ find_of_nodup hn r h2) hf

/-- A query is read as written. -/
theorem readNamed_all (W : QueryWords) (O : OrderWords) (ks : List SKey) (q : SQuery) {slice tail : List Tok} {text : Text} (hlen : W.prefixes.length = q.prefixes.length) (hl : ∀ p ∈ q.prefixes, 92 ∉ p.2)
    (hd : (q.prefixes.map (·.1)).Nodup) (hok : q.pat.Ok q.prefixes false) (hslice : SliceToks W slice q.limit q.offset) (hcol : q.columns ≠ .names [])
    (hstop : NoWord tail) (hend : ks ≠ [] → tail = []) (hks : ∀ k ∈ ks, k.name ∈ q.pat.vars) (ht : Written text (q.toks W (orderToks O ks ++ (slice ++ tail)))) :
    ∃ (num : Text → Nat) (columns : List Text) (names : List (Text × Nat)), readNamed text = (if (pop ⟨tail, [], 0⟩).1.kind ≠ .eof then .error .syntax else
      .ok (⟨if q.distinct then .distinct else .none, columns.map num, q.pat.meaning q.prefixes num, q.limit, q.offset, ks.map (SKey.meaning num)⟩, names)) ∧
      q.Shows columns ∧ (∀ x ∈ q.pat.vars, ∀ y ∈ q.pat.vars, num x = num y → x = y) ∧ ∀ x ∈ q.pat.vars, nameOf names (num x) = x := by
  have hselect : W.select.map lower = kSelect := W.hselect
  obtain ⟨h1, _⟩ := C83_prologue hlen W.hprefixes hl hd ht (by
    intro t ht _
    simp only [List.head?_cons, Option.mem_def, Option.some.injEq] at ht
    subst ht
    show W.select.map lower ≠ _
    rw [hselect]
    decide)
  unfold readNamed
  rw [h1]
  simp only [Except.bind]
  have hends : Ends ((W.where_.toList.map ident) ++ lcurly :: (q.pat.toks W.group ++ rcurly :: (orderToks O ks ++ (slice ++ tail)))) := by
    cases hw : W.where_ with
    | none => exact ⟨_, _, rfl, .inl rfl⟩
    | some w => exact ⟨_, _, rfl, .inr ⟨rfl, W.hwhere w (by rw [hw]; rfl)⟩⟩
  have hfrom : ∀ s : St, s.toks = (W.where_.toList.map ident) ++ lcurly :: (q.pat.toks W.group ++ rcurly :: (orderToks O ks ++ (slice ++ tail))) → nextWord s kFrom = false := by
    intro s hs
    cases hw : W.where_ with
    | none => rw [hw] at hs; exact nextWord_other hs (by simp [lcurly]) _
    | some w =>
      rw [hw] at hs
      have : w.map lower = kWhere := by rcases W.hwhere w (by rw [hw]; rfl) with rfl | rfl <;> decide
      rw [nextWord_ident hs this]
      decide
  -- after the modifier
  have hmod : ∀ s : St, s.toks = (if q.distinct then [ident W.distinct] else []) ++ (q.columns.toks ++ ((W.where_.toList.map ident) ++ lcurly :: (q.pat.toks W.group ++ rcurly :: (orderToks O ks ++ (slice ++ tail))))) →
      modifier s = (if q.distinct then .distinct else .none, { s with toks := q.columns.toks ++ ((W.where_.toList.map ident) ++ lcurly :: (q.pat.toks W.group ++ rcurly :: (orderToks O ks ++ (slice ++ tail)))) }) := by
    intro s hs
    cases hdst : q.distinct with
    | true =>
      rw [hdst] at hs
      unfold modifier
      rw [nextWord_ident hs W.hdistinct, pop_cons hs]
      rfl
    | false =>
      rw [hdst] at hs
      have hother : ∃ t r, s.toks = t :: r ∧ t.kind ≠ .identifier := by
        rw [hs]
        match q.columns, hcol with
        | .star, _ => exact ⟨_, _, rfl, by simp⟩
        | .names (x :: l), _ => exact ⟨_, _, rfl, by simp⟩
        | .names [], h => exact absurd rfl h
      obtain ⟨t, r, e, hk⟩ := hother
      unfold modifier
      rw [nextWord_other e hk, nextWord_other e hk, nextWord_other e hk, nextWord_other e hk]
      simp only [Bool.false_eq_true, if_false, Prod.mk.injEq, true_and]
      cases s
      simp only [Bool.false_eq_true, if_false, List.nil_append] at hs
      rw [← hs]
  have hpop : ∀ (N : List (Text × Nat)) (c : Nat), (pop ⟨tail, N, c⟩).1 = (pop ⟨tail, [], 0⟩).1 := by
    intro N c
    cases tail <;> rfl
  unfold parseSelect
  rw [nextWord_ident (by rfl) hselect, nextWord_ident (by rfl) hselect]
  simp only
  rw [if_neg (by decide), if_neg (by decide), pop_cons (by rfl)]
  simp only
  rw [hmod _ rfl]
  simp only
  have hlong : ∀ l : List Text, l.length < (ident W.select :: ((if q.distinct then [ident W.distinct] else []) ++ (l.map (Tok.mk .variable) ++
      ((W.where_.toList.map ident) ++ lcurly :: (q.pat.toks W.group ++ rcurly :: (orderToks O ks ++ (slice ++ tail))))))).length + 1 := by
    intro l
    simp only [List.length_cons, List.length_append, List.length_map]
    omega
  match hc : q.columns, hcol with
  | .names [], h => exact absurd rfl h
  | .names (x :: l), _ =>
    obtain ⟨is, s1, a1, a2, a3, a4, a5⟩ := projection_names (pre := q.prefixes) (x :: l) _ true
      ⟨(x :: l).map (Tok.mk .variable) ++ ((W.where_.toList.map ident) ++ lcurly :: (q.pat.toks W.group ++ rcurly :: (orderToks O ks ++ (slice ++ tail)))), [], 0⟩ _ rfl hends (hlong (x :: l)) (fun _ => nofun)
    obtain ⟨g, s2, b1, b2, b3, b4⟩ := where_spec (K := W.group) hok W.hwhere a2
    obtain ⟨c2, c3, os, s3, c1, c5, c6, c4⟩ := after_spec (pre := q.prefixes) hslice hstop ks hend b2
    have hinv : Inv s3 := c5.inv (b3.inv (a3.inv ⟨nofun, nofun⟩))
    refine ⟨num s3.names, x :: l, s3.names, ?_, ?_, ?_, fun y hy => nameOf_num hinv (c5.nodup (b3.nodup (a3.nodup .nil))) (isSome_ext c5.ext (b3.declared y hy))⟩
    · show (projection q.prefixes _ true ⟨(x :: l).map (Tok.mk .variable) ++ _, [], 0⟩).bind _ = _
      unfold Columns.toks
      simp only
      rw [a1]
      simp only [Except.bind]
      rw [hfrom _ a2]
      simp only [Bool.false_eq_true, if_false]
      rw [b1]
      simp only [Except.bind]
      rw [c2, c3]
      simp only [Bool.or_self, Bool.false_eq_true, if_false]
      rw [c1]
      simp only [Except.bind]
      have hne : is ≠ [] := by
        rintro rfl
        simp at a4
      rw [c4]
      simp only [Except.bind]
      rw [hpop, if_neg hne, a5 s3.names (b3.ext.trans c5.ext), b4 _ c5.ext, c6 _ (Ext.refl _)]
    · unfold SQuery.Shows
      rw [hc]
    · intro y hy z hz e
      obtain ⟨i, hi⟩ := Option.isSome_iff_exists.1 (isSome_ext c5.ext (b3.declared y hy))
      obtain ⟨j, hj⟩ := Option.isSome_iff_exists.1 (isSome_ext c5.ext (b3.declared z hz))
      unfold num at e
      rw [hi, hj] at e
      simp only [Option.getD_some] at e
      exact hinv.2 y z i hi (e ▸ hj)
  | .star, _ =>
    obtain ⟨g, s2, b1, b2, b3, b4⟩ := where_spec (K := W.group) hok W.hwhere
      (s := ⟨(W.where_.toList.map ident) ++ lcurly :: (q.pat.toks W.group ++ rcurly :: (orderToks O ks ++ (slice ++ tail))), [], 0⟩) (rest := orderToks O ks ++ (slice ++ tail)) rfl
    obtain ⟨c2, c3, os, s3, c1, c5, c6, c4⟩ := after_spec (pre := q.prefixes) hslice hstop ks hend b2
    obtain ⟨columns, d1, d2, d3⟩ := allVariables_spec (s := { s3 with toks := tail }) (((b3.from (a := ⟨[], [], 0⟩) rfl rfl).trans c5).same rfl rfl)
    have hinv : Inv s3 := c5.inv (b3.inv ⟨nofun, nofun⟩)
    refine ⟨num s3.names, columns, s3.names, ?_, ?_, ?_, fun y hy => nameOf_num hinv (c5.nodup (b3.nodup .nil)) (isSome_ext c5.ext (b3.declared y hy))⟩
    · unfold Columns.toks
      simp only [List.cons_append, List.nil_append, List.length_cons]
      rw [projection, pop_cons (by rfl)]
      simp only
      rw [if_neg (by decide), if_pos (by trivial), projection_end hends rfl]
      simp only [Except.bind]
      rw [hfrom _ rfl]
      simp only [Bool.false_eq_true, if_false]
      rw [b1]
      simp only [Except.bind]
      rw [c2, c3]
      simp only [Bool.or_self, Bool.false_eq_true, if_false]
      rw [c1]
      simp only [Except.bind]
      rw [c4]
      simp only [Except.bind]
      rw [hpop, if_pos trivial, d1, b4 _ c5.ext, c6 _ (Ext.refl _)]
    · unfold SQuery.Shows
      rw [hc]
      refine ⟨d2, fun x => (d3 x).trans ⟨fun h => ?_, List.mem_append_left _⟩⟩
      rcases List.mem_append.1 h with h | h
      · exact h
      · obtain ⟨k, hk, rfl⟩ := List.mem_map.1 h
        exact hks k hk
    · intro y hy z hz e
      obtain ⟨i, hi⟩ := Option.isSome_iff_exists.1 (isSome_ext c5.ext (b3.declared y hy))
      obtain ⟨j, hj⟩ := Option.isSome_iff_exists.1 (isSome_ext c5.ext (b3.declared z hz))
      unfold num at e
      rw [hi, hj] at e
      simp only [Option.getD_some] at e
      exact hinv.2 y z i hi (e ▸ hj)

/-- A query is read as written, without the names. -/
theorem readQuery_all (W : QueryWords) (O : OrderWords) (ks : List SKey) (q : SQuery) {slice tail : List Tok} {text : Text} (hlen : W.prefixes.length = q.prefixes.length) (hl : ∀ p ∈ q.prefixes, 92 ∉ p.2)
    (hd : (q.prefixes.map (·.1)).Nodup) (hok : q.pat.Ok q.prefixes false) (hslice : SliceToks W slice q.limit q.offset) (hcol : q.columns ≠ .names [])
    (hstop : NoWord tail) (hend : ks ≠ [] → tail = []) (hks : ∀ k ∈ ks, k.name ∈ q.pat.vars) (ht : Written text (q.toks W (orderToks O ks ++ (slice ++ tail)))) :
    ∃ (num : Text → Nat) (columns : List Text), readQuery text = (if (pop ⟨tail, [], 0⟩).1.kind ≠ .eof then .error .syntax else
      .ok ⟨if q.distinct then .distinct else .none, columns.map num, q.pat.meaning q.prefixes num, q.limit, q.offset, ks.map (SKey.meaning num)⟩) ∧
      q.Shows columns ∧ ∀ x ∈ q.pat.vars, ∀ y ∈ q.pat.vars, num x = num y → x = y := by
  obtain ⟨num, columns, names, h1, h2, h3, _⟩ := readNamed_all W O ks q hlen hl hd hok hslice hcol hstop hend hks ht
  refine ⟨num, columns, ?_, h2, h3⟩
  unfold readQuery
  rw [h1]
  split <;> rfl

/-- A query without ORDER BY is read as written. -/
theorem readQuery_tail (W : QueryWords) (q : SQuery) {slice tail : List Tok} {text : Text} (hlen : W.prefixes.length = q.prefixes.length) (hl : ∀ p ∈ q.prefixes, 92 ∉ p.2)
    (hd : (q.prefixes.map (·.1)).Nodup) (hok : q.pat.Ok q.prefixes false) (hslice : SliceToks W slice q.limit q.offset) (hcol : q.columns ≠ .names [])
    (hstop : NoWord tail) (ht : Written text (q.toks W (slice ++ tail))) :
    ∃ (num : Text → Nat) (columns : List Text), readQuery text = (if (pop ⟨tail, [], 0⟩).1.kind ≠ .eof then .error .syntax else
      .ok ⟨if q.distinct then .distinct else .none, columns.map num, q.pat.meaning q.prefixes num, q.limit, q.offset, []⟩) ∧
      q.Shows columns ∧ ∀ x ∈ q.pat.vars, ∀ y ∈ q.pat.vars, num x = num y → x = y :=
  readQuery_all W ⟨[111, 114, 100, 101, 114], [98, 121], [97, 115, 99], [100, 101, 115, 99], by decide, by decide, by decide, by decide⟩ [] q hlen hl hd hok hslice hcol hstop nofun nofun ht

/-- A query with or without ORDER BY is read as written. -/
theorem readQuery_order (W : QueryWords) (O : OrderWords) (ks : List SKey) (q : SQuery) {slice : List Tok} {text : Text} (hlen : W.prefixes.length = q.prefixes.length) (hl : ∀ p ∈ q.prefixes, 92 ∉ p.2)
    (hd : (q.prefixes.map (·.1)).Nodup) (hok : q.pat.Ok q.prefixes false) (hslice : SliceToks W slice q.limit q.offset) (hcol : q.columns ≠ .names [])
    (hks : ∀ k ∈ ks, k.name ∈ q.pat.vars) (ht : Written text (q.toks W (orderToks O ks ++ slice))) :
    ∃ (num : Text → Nat) (columns : List Text),
      readQuery text = .ok ⟨if q.distinct then .distinct else .none, columns.map num, q.pat.meaning q.prefixes num, q.limit, q.offset, ks.map (SKey.meaning num)⟩ ∧
      q.Shows columns ∧ ∀ x ∈ q.pat.vars, ∀ y ∈ q.pat.vars, num x = num y → x = y := by
  rw [← List.append_nil slice] at ht
  exact readQuery_all W O ks q hlen hl hd hok hslice hcol (fun _ h => by cases h) (fun _ => rfl) hks ht

/-- A query is read as written. -/
theorem readQuery_ok (W : QueryWords) (q : SQuery) {slice : List Tok} {text : Text} (hlen : W.prefixes.length = q.prefixes.length) (hl : ∀ p ∈ q.prefixes, 92 ∉ p.2)
    (hd : (q.prefixes.map (·.1)).Nodup) (hok : q.pat.Ok q.prefixes false) (hslice : SliceToks W slice q.limit q.offset) (hcol : q.columns ≠ .names [])
    (ht : Written text (q.toks W slice)) :
    ∃ (num : Text → Nat) (columns : List Text), readQuery text = .ok ⟨if q.distinct then .distinct else .none, columns.map num, q.pat.meaning q.prefixes num, q.limit, q.offset, []⟩ ∧
      q.Shows columns ∧ ∀ x ∈ q.pat.vars, ∀ y ∈ q.pat.vars, num x = num y → x = y := by
  rw [← List.append_nil slice] at ht
  exact readQuery_tail W q hlen hl hd hok hslice hcol (fun _ h => by cases h) ht

/-- A query is read as written, with the names of its variables. -/
theorem readNamed_ok (W : QueryWords) (q : SQuery) {slice : List Tok} {text : Text} (hlen : W.prefixes.length = q.prefixes.length) (hl : ∀ p ∈ q.prefixes, 92 ∉ p.2)
    (hd : (q.prefixes.map (·.1)).Nodup) (hok : q.pat.Ok q.prefixes false) (hslice : SliceToks W slice q.limit q.offset) (hcol : q.columns ≠ .names [])
    (ht : Written text (q.toks W slice)) :
    ∃ (num : Text → Nat) (columns : List Text) (names : List (Text × Nat)),
      readNamed text = .ok (⟨if q.distinct then .distinct else .none, columns.map num, q.pat.meaning q.prefixes num, q.limit, q.offset, []⟩, names) ∧
      q.Shows columns ∧ (∀ x ∈ q.pat.vars, ∀ y ∈ q.pat.vars, num x = num y → x = y) ∧ ∀ x ∈ q.pat.vars, nameOf names (num x) = x := by
  rw [← List.append_nil slice] at ht
  exact readNamed_all W ⟨[111, 114, 100, 101, 114], [98, 121], [97, 115, 99], [100, 101, 115, 99], by decide, by decide, by decide, by decide⟩ [] q hlen hl hd hok hslice hcol
    (fun _ h => by cases h) nofun nofun ht

theorem word_kind {t : Tok} {w : Text} (h : Word t w) : t.kind ≠ .eof := by
  cases h with
  | mark h =>
    rintro rfl
    simp [marks] at h
  | pair h =>
    rintro rfl
    simp [pairs] at h
  | _ => exact nofun

theorem written_kind : ∀ {ts : List Tok} {text : Text}, Written text ts → ∀ t ∈ ts, t.kind ≠ .eof
  | [], _, _, _, h => by cases h
  | u :: ts, _, hw, t, h => by
    cases hw with
    | cons _ hw _ hr =>
      rcases List.mem_cons.1 h with rfl | h
      · exact word_kind hw
      · exact written_kind hr t h

end Trident.Sparql.Parse
