import Verif.Dict.HistoryProofs
/-!
# The dictionary

* `terms l` are the texts of the triples `l`, `loaded common others` the terms of a load with their ids;
* `Reach P D`: the dictionary on disk `D` is the result of a load and any sequence of additions and merges;
* `openMgr P D` opens it, `getNumber` and `getText` are the two lookups.
-/
namespace Trident.Dict
open BTree SPool

/-- The dictionaries on disk after a history.  Terms are not empty and have no zero bytes.  The new terms of small additions have no white space.
The pools have sizes that C35 and C37 support, ids stay below 2^63, and updates are merged when there is no file with terms of small
updates (what happens otherwise is below). -/
inductive Reach (P : Par) : Disk → Prop
  | load {common others : List Text} : (common ++ others).Nodup → FitsDisk P (loadDict P common others) → Reach P (loadDict P common others)
  | add {D : Disk} {M : Mgr} {srt : (TT → Text) → List TT → List TT} {h : Hash} {stored : Bool} {l : List TT} : Reach P D → openMgr P D = some M →
      SortsTT srt → h.Ok → (∀ t ∈ terms l, t ≠ [] ∧ (0 : UInt8) ∉ t) → (compress srt true M.getNumber M.next l).2.next < 2 ^ 63 →
      ((compress srt true M.getNumber M.next l).2.tmp.length < P.large → ∀ t ∈ terms l, M.getNumber t = none → ∀ c ∈ t, isSpace c = false) →
      FitsDisk P (addUpdate P srt h stored D M l) → Reach P (addUpdate P srt h stored D M l)
  | merge {D D' : Disk} : Reach P D → D.gud = none → mergeDicts P D = some D' → FitsDisk P D' → Reach P D'

/-- One addition. -/
theorem add_holds {P : Par} (hm : 0 < P.m) {D : Disk} {C : Content} (h : Holds P D C) {M : Mgr} (hM : openMgr P D = some M)
    {srt : (TT → Text) → List TT → List TT} (hs : SortsTT srt) {hh : Hash} (ho : hh.Ok) {l : List TT} (hne : ∀ t ∈ terms l, t ≠ [] ∧ (0 : UInt8) ∉ t)
    (hsm : (compress srt true M.getNumber M.next l).2.next < 2 ^ 63)
    (hsp : (compress srt true M.getNumber M.next l).2.tmp.length < P.large → ∀ t ∈ terms l, M.getNumber t = none → ∀ c ∈ t, isSpace c = false)
    (hf : FitsDisk P (addUpdate P srt hh true D M l)) :
    ∃ C', Holds P (addUpdate P srt hh true D M l) C' ∧ C'.all.Perm (C.all ++ (compress srt true M.getNumber M.next l).2.tmp) := by
  obtain ⟨M', o1, o2, o3, o4, -⟩ := open_spec hm h
  rw [hM] at o1
  cases o1
  obtain ⟨a, ha, hok, hin, -, -⟩ := compress_add hs (get := M.getNumber) (next := M.next) (l := l) (fun t ht => (hne t ht).1)
    (fun x hx => (hne x.s (by simp only [terms, List.mem_append]; exact .inl (.inl (List.mem_map.2 ⟨x, hx, rfl⟩)))).2)
  rw [ha] at hsm hsp ⊢
  unfold addUpdate at hf ⊢
  rw [if_pos rfl, ha] at hf ⊢
  refine write_holds h o3 ho hok.keys (by rw [← o2]; exact hok.ids) ?_ (by have := hok.next; omega) ?_ hf
  · intro x hx
    have := hok.fresh x hx
    rw [o4, lookup_none] at this
    exact this
  · intro hl x hx
    exact ⟨(hne _ (hin x hx)).1, hsp hl _ (hin x hx) (hok.fresh x hx)⟩

theorem reach_holds {P : Par} (hm : 0 < P.m) {D : Disk} (h : Reach P D) : ∃ C, Holds P D C := by
  induction h with
  | load h1 h2 => obtain ⟨C, h, -⟩ := load_holds h1 h2; exact ⟨C, h⟩
  | @add D M srt hh stored l _ hM hs ho hne hsm hsp hf ih =>
    obtain ⟨C, h⟩ := ih
    cases stored with
    | false => exact ⟨C, h⟩
    | true =>
      obtain ⟨C', h', -⟩ := add_holds hm h hM hs ho hne hsm hsp hf
      exact ⟨C', h'⟩
  | merge _ hg hd hf ih =>
    obtain ⟨C, h⟩ := ih
    obtain ⟨C', h', -⟩ := merge_holds hm h hg hd hf
    exact ⟨C', h'⟩

/-! ## C40 -/

/-- **C40** (partial): after any history the dictionary can be opened, no lookup is undefined, and the two lookups are inverse to each
other: a text has an id exactly if the id has this text.
Missing: merging when small updates have left a file of terms (false, see below), terms with white space in small updates (C41), pools
that end at the end of a block (C35), and the tree from texts to ids, which is taken as a map. -/
theorem C40_inverse_partial {P : Par} (hm : 0 < P.m) {D : Disk} (h : Reach P D) :
    ∃ M, openMgr P D = some M ∧ (∀ t id, M.getNumber t = some id ↔ M.getText P id = some (some t)) ∧ ∀ id, (M.getText P id).isSome := by
  obtain ⟨C, hC⟩ := reach_holds hm h
  obtain ⟨M, o1, -, -, o4, o5⟩ := open_spec hm hC
  refine ⟨M, o1, ?_, fun id => by rw [o5]; rfl⟩
  intro t id
  rw [o4, o5]
  constructor
  · intro h1
    rw [lookup_of_mem (by rw [flip_fst]; exact hC.ids) (mem_flip.2 (lookup_mem h1))]
  · intro h1
    have : (flip C.all).lookup id = some t := by simpa using h1
    exact lookup_of_mem hC.texts (mem_flip.1 (lookup_mem this))

/-- **C40** (partial): different terms have different ids. -/
theorem C40_distinct_partial {P : Par} (hm : 0 < P.m) {D : Disk} (h : Reach P D) {M : Mgr} (hM : openMgr P D = some M) {t t' : Text} {id : Nat}
    (h1 : M.getNumber t = some id) (h2 : M.getNumber t' = some id) : t = t' := by
  obtain ⟨M', o, a, -⟩ := C40_inverse_partial hm h
  rw [hM] at o
  cases o
  have := (a t id).1 h1
  rw [(a t' id).1 h2] at this
  simpa using this.symm

/-- **C40** (partial): every loaded term has an id, and the ids are `0, 1, …` without gaps. -/
theorem C40_loaded_partial {P : Par} (hm : 0 < P.m) {common others : List Text} (h : (common ++ others).Nodup) (hf : FitsDisk P (loadDict P common others)) :
    ∃ M, openMgr P (loadDict P common others) = some M ∧ ∀ i t, (common ++ others)[i]? = some t ↔ M.getNumber t = some i := by
  obtain ⟨C, hC, hall⟩ := load_holds h hf
  obtain ⟨M, o1, -, -, o4, -⟩ := open_spec hm hC
  refine ⟨M, o1, fun i t => ?_⟩
  have key : (t, i) ∈ C.all ↔ (common ++ others)[i]? = some t := by
    rw [hall]
    unfold loaded
    rw [List.mem_append, List.mem_zipIdx_iff_le_and_getElem?_sub, List.mem_zipIdx_iff_le_and_getElem?_sub, List.getElem?_append]
    simp only
    by_cases hi : i < common.length
    · rw [if_pos hi]
      simp only [Nat.sub_zero, Nat.zero_le, true_and]
      constructor
      · rintro (⟨h1, -⟩ | h2)
        · omega
        · exact h2
      · exact fun h2 => .inr h2
    · rw [if_neg hi]
      constructor
      · rintro (⟨-, h1⟩ | ⟨-, h2⟩)
        · exact h1
        · rw [Nat.sub_zero] at h2
          have := (List.getElem?_eq_some_iff.1 h2).1
          omega
      · exact fun h1 => .inl ⟨by omega, h1⟩
  rw [o4, ← key]
  exact ⟨lookup_of_mem hC.texts, lookup_mem⟩

/-- **C40** (partial): an addition does not change the id of any term that has one, and gives an id to all its terms. -/
theorem C40_add_partial {P : Par} (hm : 0 < P.m) {D : Disk} (h : Reach P D) {M : Mgr} (hM : openMgr P D = some M)
    {srt : (TT → Text) → List TT → List TT} (hs : SortsTT srt) {hh : Hash} (ho : hh.Ok) {l : List TT} (hne : ∀ t ∈ terms l, t ≠ [] ∧ (0 : UInt8) ∉ t)
    (hsm : (compress srt true M.getNumber M.next l).2.next < 2 ^ 63)
    (hsp : (compress srt true M.getNumber M.next l).2.tmp.length < P.large → ∀ t ∈ terms l, M.getNumber t = none → ∀ c ∈ t, isSpace c = false)
    (hf : FitsDisk P (addUpdate P srt hh true D M l)) :
    ∃ M', openMgr P (addUpdate P srt hh true D M l) = some M' ∧ (∀ t id, M.getNumber t = some id → M'.getNumber t = some id) ∧
      (∀ t, (M'.getNumber t).isSome ↔ (M.getNumber t).isSome ∨ t ∈ terms l) ∧
      -- the triples of ids that the addition stores are those whose texts are the triples of the addition
      (compress srt true M.getNumber M.next l).1.Perm (l.map fun x => ((M'.getNumber x.s).getD 0, (M'.getNumber x.p).getD 0, (M'.getNumber x.o).getD 0)) := by
  obtain ⟨C, hC⟩ := reach_holds hm h
  obtain ⟨M1, o1, o2, o3, o4, -⟩ := open_spec hm hC
  rw [hM] at o1
  cases o1
  obtain ⟨C', hC', hp⟩ := add_holds hm hC hM hs ho hne hsm hsp hf
  obtain ⟨M', p1, -, -, p4, -⟩ := open_spec hm hC'
  have hmem : ∀ t id, M'.getNumber t = some id ↔ (t, id) ∈ C.all ∨ (t, id) ∈ (compress srt true M.getNumber M.next l).2.tmp := by
    intro t id
    rw [p4, ← List.mem_append, ← hp.mem_iff]
    exact ⟨lookup_mem, lookup_of_mem hC'.texts⟩
  have hold : ∀ t id, M.getNumber t = some id ↔ (t, id) ∈ C.all := by
    intro t id
    rw [o4]
    exact ⟨lookup_mem, lookup_of_mem hC.texts⟩
  obtain ⟨a, ha, hok, hin, hall, l', hl', hpl⟩ := compress_add hs (get := M.getNumber) (next := M.next) (l := l) (fun t ht => (hne t ht).1)
    (fun x hx => (hne x.s (by simp only [terms, List.mem_append]; exact .inl (.inl (List.mem_map.2 ⟨x, hx, rfl⟩)))).2)
  rw [ha] at hmem hsm
  have hid : ∀ t ∈ terms l, M'.getNumber t = some (a.idOf M.getNumber t) := by
    intro t ht
    rw [hmem]
    unfold Acc.idOf
    cases hg : M.getNumber t with
    | some i => exact .inl ((hold t i).1 hg)
    | none =>
      cases hlk : a.tmp.lookup t with
      | none => exact absurd (hall t ht hg) (lookup_none.1 hlk)
      | some i => exact .inr (lookup_mem hlk)
  have hlim : ∀ t ∈ terms l, a.idOf M.getNumber t ≠ noId := by
    intro t ht
    have := (hmem _ _).1 (hid t ht)
    have hn := hok.next
    have : a.idOf M.getNumber t < a.next := by
      rcases this with h1 | h1
      · have := next_gt hC _ h1
        simp only at this
        rw [← o2] at this
        omega
      · have h2 : a.idOf M.getNumber t ∈ a.tmp.map (·.2) := List.mem_map.2 ⟨_, h1, rfl⟩
        rw [hok.ids, List.mem_range'] at h2
        obtain ⟨i, hi, e⟩ := h2
        omega
    unfold noId
    omega
  refine ⟨M', p1, fun t id h1 => (hmem t id).2 (.inl ((hold t id).1 h1)), ?_, ?_⟩
  · intro t
    rw [Option.isSome_iff_exists, Option.isSome_iff_exists]
    constructor
    · rintro ⟨i, hi⟩
      rcases (hmem t i).1 hi with h1 | h1
      · exact .inl ⟨i, (hold t i).2 h1⟩
      · exact .inr (hin _ h1)
    · rintro (⟨i, hi⟩ | ht)
      · exact ⟨i, (hmem t i).2 (.inl ((hold t i).1 hi))⟩
      · exact ⟨_, hid t ht⟩
  · rw [hl']
    have hs1 : ∀ x ∈ l, x.s ∈ terms l ∧ x.p ∈ terms l ∧ x.o ∈ terms l := by
      intro x hx
      simp only [terms, List.mem_append]
      exact ⟨.inl (.inl (List.mem_map.2 ⟨x, hx, rfl⟩)), .inl (.inr (List.mem_map.2 ⟨x, hx, rfl⟩)), .inr (List.mem_map.2 ⟨x, hx, rfl⟩)⟩
    unfold complete
    refine ((hpl.filter _).map _).trans ?_
    rw [List.filter_eq_self.2, List.map_map]
    · refine .of_eq (List.map_congr_left fun x hx => ?_)
      obtain ⟨h1, h2, h3⟩ := hs1 x hx
      simp only [Function.comp_apply, hid _ h1, hid _ h2, hid _ h3, Option.getD_some]
    · intro y hy
      obtain ⟨x, hx, rfl⟩ := List.mem_map.1 hy
      obtain ⟨h1, h2, h3⟩ := hs1 x hx
      simp [hlim _ h1, hlim _ h2, hlim _ h3]

/-- **C40** (partial): merging the dictionaries of the updates does not change any lookup. -/
theorem C40_merge_partial {P : Par} (hm : 0 < P.m) {D D' : Disk} (h : Reach P D) (hg : D.gud = none) (hd : mergeDicts P D = some D') (hf : FitsDisk P D')
    {M : Mgr} (hM : openMgr P D = some M) :
    ∃ M', openMgr P D' = some M' ∧ (∀ t, M'.getNumber t = M.getNumber t) ∧ ∀ id, M'.getText P id = M.getText P id := by
  obtain ⟨C, hC⟩ := reach_holds hm h
  obtain ⟨M1, o1, -, -, o4, o5⟩ := open_spec hm hC
  rw [hM] at o1
  cases o1
  obtain ⟨C', hC', hp⟩ := merge_holds hm hC hg hd hf
  obtain ⟨M', p1, -, -, p4, p5⟩ := open_spec hm hC'
  have same : ∀ {α β : Type} [BEq α] [LawfulBEq α] {l l' : List (α × β)}, l'.Perm l → (l.map (·.1)).Nodup → ∀ k, l'.lookup k = l.lookup k := by
    intro α β _ _ l l' hp hn k
    cases hl : l.lookup k with
    | some x => exact lookup_of_mem ((hp.map _).nodup_iff.2 hn) (hp.mem_iff.2 (lookup_mem hl))
    | none =>
      rw [lookup_none] at hl ⊢
      exact fun h => hl ((hp.map _).mem_iff.1 h)
  refine ⟨M', p1, fun t => ?_, fun id => ?_⟩
  · rw [p4, o4, same hp hC.texts]
  · rw [p5, o5]
    have : (flip C'.all).Perm (flip C.all) := hp.map _
    rw [same this (by rw [flip_fst]; exact hC.ids)]

/-! A database with the terms `p`, `a`, `b`; an addition with two new terms and one with three, of which the second gets its own dictionary. -/

theorem lessThan_iff : ∀ {a b : Text}, (0 : UInt8) ∉ a → (0 : UInt8) ∉ b → (lessThan a b = true ↔ a < b)
  | [], [], _, _ => by simp [lessThan, strncmp]
  | [], y :: b, _, _ => by simp [lessThan, strncmp]
  | x :: a, [], _, _ => by simp [lessThan, strncmp]
  | x :: a, y :: b, ha, hb => by
    have ih := lessThan_iff (a := a) (b := b) (fun h => ha (by simp [h])) (fun h => hb (by simp [h]))
    rw [List.cons_lt_cons_iff]
    unfold lessThan at ih ⊢
    rw [List.length_cons, List.length_cons, Nat.succ_min_succ, strncmp]
    by_cases h1 : x < y
    · simp [h1]
    · by_cases h2 : y < x
      · have : x ≠ y := fun e => by subst e; exact h1 h2
        simp [h1, h2, this]
      · have e : x = y := UInt8.le_antisymm (UInt8.not_lt.1 h2) (UInt8.not_lt.1 h1)
        subst e
        have h0 : x ≠ 0 := fun e => ha (by simp [e])
        rw [if_neg h1, if_neg h2, if_neg h0]
        simp only [h1, false_or, true_and]
        rw [← ih]
        cases strncmp (min a.length b.length) a b <;> simp

/-- A sort, for the examples. -/
def insTT (f : TT → Text) (a : TT) : List TT → List TT
  | [] => [a]
  | b :: l => if f b < f a then b :: insTT f a l else a :: b :: l

def sortTT (f : TT → Text) : List TT → List TT
  | [] => []
  | a :: l => insTT f a (sortTT f l)

theorem insTT_perm (f : TT → Text) (a : TT) : ∀ l, (insTT f a l).Perm (a :: l)
  | [] => .refl _
  | b :: l => by
    unfold insTT
    by_cases h : f b < f a
    · rw [if_pos h]
      exact ((insTT_perm f a l).cons b).trans (.swap a b l)
    · rw [if_neg h]

theorem sortTT_sorts : SortsTT sortTT where
  perm f l := by
    induction l with
    | nil => exact .refl _
    | cons a l ih => exact (insTT_perm f a _).trans (ih.cons a)
  sorted f l h0 := by
    have key : ∀ l, (sortTT f l).Pairwise fun a b => f a ≤ f b := by
      intro l
      induction l with
      | nil => exact .nil
      | cons a l ih =>
        have ins : ∀ q : List TT, (q.Pairwise fun a b => f a ≤ f b) → (insTT f a q).Pairwise fun a b => f a ≤ f b := by
          intro q
          induction q with
          | nil => intro _; simp [insTT]
          | cons b q ih2 =>
            intro hq
            rw [List.pairwise_cons] at hq
            unfold insTT
            by_cases h : f b < f a
            · rw [if_pos h, List.pairwise_cons]
              refine ⟨?_, ih2 hq.2⟩
              intro c hc
              rcases List.mem_cons.1 ((insTT_perm f a q).mem_iff.1 hc) with rfl | hc
              · exact List.le_of_lt h
              · exact hq.1 c hc
            · rw [if_neg h, List.pairwise_cons]
              refine ⟨?_, List.pairwise_cons.2 hq⟩
              intro c hc
              have hab : f a ≤ f b := List.not_lt.1 h
              rcases List.mem_cons.1 hc with rfl | hc
              · exact hab
              · exact List.le_trans hab (hq.1 c hc)
        exact ins _ ih
    have hperm : (sortTT f l).Perm l := by
      clear h0
      induction l with
      | nil => exact .refl _
      | cons a l ih => exact (insTT_perm f a _).trans (ih.cons a)
    refine (key l).imp_of_mem ?_
    intro a b ha hb hab
    cases hl : lessThan (f b) (f a) with
    | false => rfl
    | true =>
      exact absurd ((lessThan_iff (h0 _ (hperm.mem_iff.1 hb)) (h0 _ (hperm.mem_iff.1 ha))).1 hl) (List.not_lt.2 hab)

def exPar : Par := ⟨64, 1, 3, fun _ => 0⟩
def exHash : Hash := ⟨List.reverse, List.reverse⟩
theorem exHash_ok : exHash.Ok := ⟨fun l => List.reverse_perm l, fun l => List.reverse_perm l⟩

/-- `p`, `a`, `b`. -/
def exDisk : Disk := loadDict exPar [[112]] [[97], [98]]
/-- `a p c`, `c p d`. -/
def exAdd1 : List TT := [⟨[97], [112], [99], 0, 0, 0⟩, ⟨[99], [112], [100], 0, 0, 0⟩]
/-- `e q b`, `c p "f g"`. -/
def exAdd2 : List TT := [⟨[101], [113], [98], 0, 0, 0⟩, ⟨[99], [112], [102, 32, 103], 0, 0, 0⟩]
def exMgr (D : Disk) : Mgr := (openMgr exPar D).getD ⟨[], {}, 0⟩
def exDisk1 : Disk := addUpdate exPar sortTT exHash true exDisk (exMgr exDisk) exAdd1
def exDisk2 : Disk := addUpdate exPar sortTT exHash true exDisk1 (exMgr exDisk1) exAdd2

theorem some_getD {α : Type} {o : Option α} {d : α} (h : o.isSome) : o = some (o.getD d) := by
  cases o with
  | none => simp at h
  | some x => rfl

instance (B : Nat) (ss : List Text) : Decidable (Limits B ss) :=
  decidable_of_iff (4 ≤ B ∧ B ≤ 2 ^ 28 ∧ ∀ s ∈ ss, s.length ≤ B ∧ s.length < 2 ^ 28) ⟨fun h => ⟨h.1, h.2.1, h.2.2⟩, fun h => ⟨h.1, h.2, h.3⟩⟩

instance (P : Par) (ss : List Text) : Decidable (FitsPool P ss) :=
  decidable_of_iff (Limits P.B ss ∧ (ss ≠ [] → (added P.B ss).total % P.B ≠ 0)) ⟨fun h => ⟨h.1, h.2⟩, fun h => ⟨h.1, h.2⟩⟩

instance (P : Par) (D : Disk) : Decidable (FitsDisk P D) := by unfold FitsDisk; infer_instance

/-- The hypotheses of the theorems above hold for this history, with both kinds of additions. -/
theorem exReach : Reach exPar exDisk2 := by
  refine .add (D := exDisk1) (.add (D := exDisk) (.load (by decide) (by decide +kernel)) (some_getD (by decide +kernel)) sortTT_sorts exHash_ok (by decide +kernel)
    (by decide +kernel) (by decide +kernel) (by decide +kernel)) (some_getD (by decide +kernel)) sortTT_sorts exHash_ok (by decide +kernel)
    (by decide +kernel) (by decide +kernel) (by decide +kernel)

example : exDisk2.upds.length = 1 ∧ exDisk2.gud.isSome ∧ (exMgr exDisk2).getNumber [99] = some 3 ∧ (exMgr exDisk2).getText exPar 3 = some (some [99]) ∧
    (exMgr exDisk2).getText exPar 7 = some (some [102, 32, 103]) ∧ (exMgr exDisk2).getText exPar 1 = some (some [97]) := by decide +kernel

/-- Merging with two dictionaries of updates. -/
def exPar0 : Par := ⟨64, 1, 0, fun _ => 0⟩
def exD0 : Disk := loadDict exPar0 [[112]] [[97], [98]]
def exM0 (D : Disk) : Mgr := (openMgr exPar0 D).getD ⟨[], {}, 0⟩
def exD1 : Disk := addUpdate exPar0 sortTT exHash true exD0 (exM0 exD0) exAdd1
def exD2 : Disk := addUpdate exPar0 sortTT exHash true exD1 (exM0 exD1) exAdd2
def exD3 : Disk := (mergeDicts exPar0 exD2).getD exD2

theorem exReach3 : Reach exPar0 exD3 := by
  refine .merge (D := exD2) (.add (D := exD1) (.add (D := exD0) (.load (by decide) (by decide +kernel)) (some_getD (by decide +kernel)) sortTT_sorts exHash_ok (by decide +kernel)
    (by decide +kernel) (by decide +kernel) (by decide +kernel)) (some_getD (by decide +kernel)) sortTT_sorts exHash_ok (by decide +kernel)
    (by decide +kernel) (by decide +kernel) (by decide +kernel)) (by decide +kernel) (some_getD (by decide +kernel)) (by decide +kernel)

example : exD2.upds.length = 2 ∧ exD3.upds.length = 1 ∧ (exM0 exD3).getNumber [99] = some 3 ∧ (exM0 exD3).getText exPar0 7 = some (some [102, 32, 103]) := by
  decide +kernel

/-- **C40** fails when updates are merged after small additions: the file with their terms is not in the new directory, so the ids have no
text any more, and the next new term gets one of them. -/
theorem C40_merge_violated : ∃ D D' : Disk, Reach exPar D ∧ mergeDicts exPar D = some D' ∧ (exMgr D).getText exPar 3 = some (some [99]) ∧
    (exMgr D').getText exPar 3 = some none ∧ (exMgr D').getNumber [99] = none ∧ (exMgr D').next = 3 := by
  refine ⟨exDisk1, (mergeDicts exPar exDisk1).getD exDisk, ?_, some_getD (by decide +kernel), by decide +kernel, by decide +kernel, by decide +kernel, by decide +kernel⟩
  exact .add (D := exDisk) (.load (by decide) (by decide +kernel)) (some_getD (by decide +kernel)) sortTT_sorts exHash_ok (by decide +kernel)
    (by decide +kernel) (by decide +kernel) (by decide +kernel)

/-! ## C41 -/

/-- **C41** (partial): the terms of small updates are read back from the file, with their ids, if they are not empty and have no white space. -/
theorem C41_restart_partial {order : List (Nat × Text) → List (Nat × Text)} (ho : ∀ l, (order l).Perm l) {g : Gud} (hl : g.largest < 2 ^ 64)
    (h : ∀ e ∈ g.texts, e.1 < 2 ^ 64 ∧ e.2 ≠ [] ∧ ∀ c ∈ e.2, isSpace c = false)
    (h1 : (g.texts.map (·.1)).Nodup) (h2 : (g.texts.map (·.2)).Nodup) :
    ∃ g', readGud (g.write order) = some g' ∧ g'.largest = g.largest ∧ (∀ id, g'.texts.lookup id = g.texts.lookup id) ∧
      ∀ t id, g'.ids.lookup t = some id ↔ g.texts.lookup id = some t := by
  have hp := ho g.texts
  have n1 : ((order g.texts).map (·.1)).Nodup := ((hp.map _).nodup_iff).2 h1
  have n2 : ((order g.texts).map (·.2)).Nodup := ((hp.map _).nodup_iff).2 h2
  refine ⟨_, readGud_spec hl (fun e he => ⟨(h e (hp.mem_iff.1 he)).1, (h e (hp.mem_iff.1 he)).2⟩) n1 n2, rfl, ?_, ?_⟩
  · intro id
    cases hg : g.texts.lookup id with
    | some t => exact lookup_of_mem n1 (hp.mem_iff.2 (lookup_mem hg))
    | none =>
      rw [lookup_none] at hg ⊢
      intro hm
      exact hg ((hp.map _).mem_iff.1 hm)
  · intro t id
    constructor
    · intro hx
      obtain ⟨e, he, hx⟩ := List.mem_map.1 (lookup_mem hx)
      injection hx with e1 e2
      subst e1; subst e2
      exact lookup_of_mem h1 (hp.mem_iff.1 he)
    · intro hx
      refine lookup_of_mem ?_ (List.mem_map.2 ⟨(id, t), hp.mem_iff.2 (lookup_mem hx), rfl⟩)
      rw [List.map_map]
      exact n2

/-- Three terms. -/
example : readGud ((Gud.mk [(7, [60, 97, 62]), (1234567890123, [34, 98, 34]), (8, [55])] [] 1234567890123).write List.reverse) =
    some ⟨[(8, [55]), (1234567890123, [34, 98, 34]), (7, [60, 97, 62])], [([55], 8), ([34, 98, 34], 1234567890123), ([60, 97, 62], 7)], 1234567890123⟩ := by
  decide +kernel

/-- **C41** fails for texts with a space (for example the literal `"a b"`): after such an addition, opening the database never returns. -/
theorem C41_space_violated {u r : Text} {c : UInt8} {id : Nat} (hid : id < 2 ^ 64) (hu : u ≠ [] ∧ ∀ c ∈ u, isSpace c = false)
    (hc : isSpace c = false ∧ isDigit c = false ∧ c ≠ 43 ∧ c ≠ 45) (order : List (Nat × Text) → List (Nat × Text)) (ho : ∀ x, order [x] = [x]) :
    readGud ((Gud.put {} id (u ++ 32 :: c :: r)).write order) = none := by
  have e1 : (Gud.put {} id (u ++ 32 :: c :: r)).write order =
      [] ++ (showNum id ++ 10 :: ([] ++ (showNum id ++ 9 :: (u ++ 32 :: (c :: (r ++ [10])))))) := by
    unfold Gud.write Gud.put insertNew
    simp [ho]
  rw [e1]
  unfold readGud
  rw [readNum_spec hid [] (by simp) (by decide)]
  simp only [List.isEmpty_cons, Bool.false_eq_true, if_false]
  have e2 : (10 :: ([] ++ (showNum id ++ 9 :: (u ++ 32 :: (c :: (r ++ [10]))))) : List UInt8) = [10] ++ (showNum id ++ 9 :: (u ++ 32 :: (c :: (r ++ [10])))) := by simp
  rw [e2, readEntries, readNum_spec hid [10] (by decide) (by decide)]
  have hd : (9 :: (u ++ 32 :: (c :: (r ++ [10])))).dropWhile isSpace = u ++ 32 :: (c :: (r ++ [10])) := by
    rw [List.dropWhile_cons]
    cases h : u with
    | nil => exact absurd h hu.1
    | cons x xs =>
      have := hu.2 x (by simp [h])
      have h9 : isSpace 9 = true := by decide
      rw [h9, if_pos rfl, List.cons_append, List.dropWhile_cons, this]
      rfl
  obtain ⟨t1, t2⟩ := takeWhile_app (p := fun c => !isSpace c) (l := u) (x := 32) (r := c :: (r ++ [10])) (fun c hc => by simp [hu.2 c hc]) (by decide)
  simp only [hd, t1, t2, hu.1, if_false, List.isEmpty_cons, Bool.false_eq_true]
  have hlen : ([10] ++ (showNum id ++ 9 :: (u ++ 32 :: c :: (r ++ [10])))).length =
      (showNum id ++ 9 :: (u ++ 32 :: c :: (r ++ [10]))).length + 1 := by simp
  rw [hlen, readEntries]
  have hn : readNum (32 :: c :: (r ++ [10])) = .fail false := by
    have h32 : isSpace 32 = true := by decide
    unfold readNum
    simp only [List.dropWhile_cons, h32, hc.1, if_true, Bool.false_eq_true, if_false, List.head?_cons, Option.some.injEq, hc.2.2.1, hc.2.2.2, or_self,
      List.takeWhile_cons, hc.2.1, true_or, List.isEmpty_cons]
  rw [hn]
  rfl

/-- The literal `"a b"`. -/
example : readGud ((Gud.put {} 5 [34, 97, 32, 98, 34]).write id) = none := by decide +kernel

/-- **C41** fails silently if the character after the space is a digit: the literal `"a 7"` comes back as `"a`, and its own text has no id
any more. -/
theorem C41_number_violated : ∃ g', readGud ((Gud.put {} 5 [34, 97, 32, 55, 34]).write id) = some g' ∧ g'.texts.lookup 5 = some [34, 97] ∧
    g'.ids.lookup [34, 97, 32, 55, 34] = none := ⟨_, some_getD (d := {}) (by decide +kernel), by decide +kernel, by decide +kernel⟩

/-! ## C51 -/

/-- **C51** (partial): in an addition every triple becomes the triple of the ids of its own terms, where a term in the dictionary keeps
its id and different new terms get different new ids, which are recorded.
Missing: empty terms, and zero bytes in subjects. -/
theorem C51_add_partial {srt : (TT → Text) → List TT → List TT} (hs : SortsTT srt) {get : Text → Option Nat} {next : Nat} {l : List TT}
    (hne : ∀ t ∈ terms l, t ≠ []) (h0 : ∀ x ∈ l, (0 : UInt8) ∉ x.s) (hget : ∀ t id, get t = some id → id < next)
    (hlim : (compress srt true get next l).2.next < 2 ^ 64) :
    ∃ idOf : Text → Nat, (∀ t id, get t = some id → idOf t = id) ∧ (∀ t ∈ terms l, get t = none → next ≤ idOf t) ∧
      (∀ t ∈ terms l, ∀ t' ∈ terms l, get t = none → get t' = none → idOf t = idOf t' → t = t') ∧
      (compress srt true get next l).1.Perm (l.map fun x => (idOf x.s, idOf x.p, idOf x.o)) ∧
      ∀ t i, (t, i) ∈ (compress srt true get next l).2.tmp ↔ t ∈ terms l ∧ get t = none ∧ i = idOf t := by
  obtain ⟨a, ha, hok, hin, hall, l', hl', hpl⟩ := compress_add hs (get := get) (next := next) hne h0
  rw [ha] at hlim ⊢
  have hnew : ∀ t ∈ terms l, get t = none → (t, a.idOf get t) ∈ a.tmp := by
    intro t ht hg
    unfold Acc.idOf
    rw [hg]
    cases hlk : a.tmp.lookup t with
    | none => exact absurd (hall t ht hg) (lookup_none.1 hlk)
    | some i => exact lookup_mem hlk
  have hrange : ∀ x ∈ a.tmp, next ≤ x.2 ∧ x.2 < a.next := by
    intro x hx
    have : x.2 ∈ a.tmp.map (·.2) := List.mem_map.2 ⟨x, hx, rfl⟩
    rw [hok.ids, List.mem_range'] at this
    obtain ⟨i, hi, e⟩ := this
    have := hok.next
    omega
  have hids : (a.tmp.map (·.2)).Nodup := by rw [hok.ids]; exact List.nodup_range'
  have hno : ∀ t ∈ terms l, a.idOf get t ≠ noId := by
    intro t ht
    cases hg : get t with
    | some i =>
      have h1 := hget t i hg
      have h2 : a.idOf get t = i := by unfold Acc.idOf; rw [hg]; rfl
      have := hok.next
      unfold noId
      omega
    | none =>
      have := (hrange _ (hnew t ht hg)).2
      simp only at this
      unfold noId
      omega
  refine ⟨a.idOf get, fun t id hg => by unfold Acc.idOf; rw [hg]; rfl, fun t ht hg => (hrange _ (hnew t ht hg)).1, ?_, ?_, ?_⟩
  · intro t ht t' ht' hg hg' e
    have := same_id hids (hnew t ht hg) (hnew t' ht' hg') e
    injection this
  · rw [hl']
    unfold complete
    refine ((hpl.filter _).map _).trans ?_
    rw [List.filter_eq_self.2, List.map_map]
    · exact .refl _
    · intro y hy
      obtain ⟨x, hx, rfl⟩ := List.mem_map.1 hy
      have h1 := hno x.s (by simp only [terms, List.mem_append]; exact .inl (.inl (List.mem_map.2 ⟨x, hx, rfl⟩)))
      have h2 := hno x.p (by simp only [terms, List.mem_append]; exact .inl (.inr (List.mem_map.2 ⟨x, hx, rfl⟩)))
      have h3 := hno x.o (by simp only [terms, List.mem_append]; exact .inr (List.mem_map.2 ⟨x, hx, rfl⟩))
      simp [h1, h2, h3]
  · intro t i
    constructor
    · intro h
      refine ⟨hin _ h, hok.fresh _ h, ?_⟩
      unfold Acc.idOf
      rw [hok.fresh _ h, lookup_of_mem hok.keys h]
      rfl
    · rintro ⟨ht, hg, rfl⟩
      exact hnew t ht hg

/-- Two triples with a new term that is a subject and an object. -/
example : (∀ t ∈ terms exAdd1, t ≠ []) ∧ (compress sortTT true (exMgr exDisk).getNumber 3 exAdd1).2.tmp = [([99], 3), ([100], 4)] ∧
    (compress sortTT true (exMgr exDisk).getNumber 3 exAdd1).1 = [(1, 0, 3), (3, 0, 4)] := by decide +kernel

/-- **C51** (partial): in a deletion every triple whose terms are known becomes the triple of their ids, and the others are left out, if no
unknown term is twice in a column.
Missing: unknown terms that are twice in a column (false, see below), and empty terms. -/
theorem C51_delete_partial {srt : (TT → Text) → List TT → List TT} (hs : SortsTT srt) {get : Text → Option Nat} {next : Nat} {l : List TT}
    (hne : ∀ t ∈ terms l, t ≠ []) (h1 : ∀ t ∈ l.map TT.s, get t = none → (l.map TT.s).count t = 1)
    (h2 : ∀ t ∈ l.map TT.p, get t = none → (l.map TT.p).count t = 1) (h3 : ∀ t ∈ l.map TT.o, get t = none → (l.map TT.o).count t = 1)
    (hget : ∀ t id, get t = some id → id < noId) :
    (compress srt false get next l).1.Perm (l.filterMap fun x => (get x.s).bind fun s => (get x.p).bind fun p => (get x.o).map fun o => (s, p, o)) := by
  obtain ⟨l', hl', hp⟩ := compress_delete hs (next := next) hne h1 h2 h3
  rw [hl']
  unfold complete
  refine ((hp.filter _).map _).trans (.of_eq ?_)
  clear hp hl' h1 h2 h3 hne
  induction l with
  | nil => rfl
  | cons x l ih =>
    rw [List.map_cons, List.filter_cons, List.filterMap_cons]
    have ne : ∀ t i, get t = some i → i ≠ noId := fun t i h => by have := hget t i h; omega
    cases hs1 : get x.s with
    | none => simpa using ih
    | some s =>
      cases hp1 : get x.p with
      | none => simpa using ih
      | some p =>
        cases ho1 : get x.o with
        | none => simpa using ih
        | some o => simpa [ne _ _ hs1, ne _ _ hp1, ne _ _ ho1] using ih

/-- A known triple and one with an unknown subject. -/
example : (compress sortTT false (exMgr exDisk).getNumber 3 [⟨[97], [112], [98], 0, 0, 0⟩, ⟨[120], [112], [98], 0, 0, 0⟩]).1 = [(1, 0, 2)] := by decide +kernel

/-- **C51** fails for deletions with a repeated unknown term: deleting `a p a`, `x p a` and `x p b`, where `x` is in no triple, deletes
`a p b` as well. -/
theorem C51_delete_violated : ∃ l : List TT, l.map (fun x => (x.s, x.p, x.o)) = [([97], [112], [97]), ([120], [112], [97]), ([120], [112], [98])] ∧
    (exMgr exDisk).getNumber [120] = none ∧ ((exMgr exDisk).getNumber [97], (exMgr exDisk).getNumber [112], (exMgr exDisk).getNumber [98]) = (some 1, some 0, some 2) ∧
    (1, 0, 2) ∈ (compress sortTT false (exMgr exDisk).getNumber 3 l).1 :=
  ⟨[⟨[97], [112], [97], 0, 0, 0⟩, ⟨[120], [112], [97], 0, 0, 0⟩, ⟨[120], [112], [98], 0, 0, 0⟩], rfl, by decide +kernel, by decide +kernel, by decide +kernel⟩

end Trident.Dict
