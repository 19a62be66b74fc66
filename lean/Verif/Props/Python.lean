import Verif.Python.DbProofs
import Verif.Props.Card
import Verif.Props.Counts
import Verif.Props.Terms
import Verif.Props.Flat
/-!
# C99 to C103: the Python module

`Lists`, `Lists2`, `Lists3` and `Gives` are in `Python/Spec.lean`.  `Answers get G`: the querier answers from the triples `G`, given by `answers_stored` and `answers_updated` for stored
graphs and for graphs with updates.
-/
namespace Trident.Python
open Trident Load Join Upd

/-! ## C99: lookups -/

/-- **C99**: `s(p, o)` returns the subjects, each once and in increasing order. -/
theorem C99_s {get : Nat → Int → Int → Int → QRes} {G : Triple → Prop} (ha : Answers get G) (p o : Int) (hp : 0 ≤ p) (ho : 0 ≤ o) :
    ∃ l, Lists l (fun x => G ⟨x, p, o⟩) ∧ Gives (fun fuel => s get fuel p o) l := by
  obtain ⟨out, it, a, b, c⟩ := permuted_one ha .ops ho hp
  refine ⟨_, ⟨c.1, fun x => (c.2 x).trans ?_⟩, collect_gives a b _⟩
  constructor
  · rintro ⟨⟨s, p', o'⟩, h, e⟩; cases e; exact h
  · intro h; exact ⟨_, h, rfl⟩

/-- **C99**: `o(s, p)` returns the objects. -/
theorem C99_o {get : Nat → Int → Int → Int → QRes} {G : Triple → Prop} (ha : Answers get G) (s p : Int) (hs : 0 ≤ s) (hp : 0 ≤ p) :
    ∃ l, Lists l (fun x => G ⟨s, p, x⟩) ∧ Gives (fun fuel => o get fuel s p) l := by
  obtain ⟨out, it, a, b, c⟩ := permuted_one ha .spo hs hp
  refine ⟨_, ⟨c.1, fun x => (c.2 x).trans ?_⟩, collect_gives a b _⟩
  constructor
  · rintro ⟨⟨s, p', o'⟩, h, e⟩; cases e; exact h
  · intro h; exact ⟨_, h, rfl⟩

/-- **C99**: `po(s)` returns the pairs of predicate and object. -/
theorem C99_po {get : Nat → Int → Int → Int → QRes} {G : Triple → Prop} (ha : Answers get G) (s : Int) (hs : 0 ≤ s) :
    ∃ l, Lists2 l (fun p o => G ⟨s, p, o⟩) ∧ Gives (fun fuel => po get fuel s) l := by
  obtain ⟨out, it, a, b, c⟩ := permuted_two ha .spo hs
  refine ⟨_, ⟨c.1, fun x y => (c.2 x y).trans ?_⟩, collect_gives a b _⟩
  constructor
  · rintro ⟨⟨s, p', o'⟩, h, e⟩; cases e; exact h
  · intro h; exact ⟨_, h, rfl⟩

/-- **C99**: `ps(o)` returns the pairs of predicate and subject. -/
theorem C99_ps {get : Nat → Int → Int → Int → QRes} {G : Triple → Prop} (ha : Answers get G) (o : Int) (ho : 0 ≤ o) :
    ∃ l, Lists2 l (fun p s => G ⟨s, p, o⟩) ∧ Gives (fun fuel => ps get fuel o) l := by
  obtain ⟨out, it, a, b, c⟩ := permuted_two ha .ops ho
  refine ⟨_, ⟨c.1, fun x y => (c.2 x y).trans ?_⟩, collect_gives a b _⟩
  constructor
  · rintro ⟨⟨s, p', o'⟩, h, e⟩; cases e; exact h
  · intro h; exact ⟨_, h, rfl⟩

/-- **C99**: `os(p)` returns the pairs of object and subject. -/
theorem C99_os {get : Nat → Int → Int → Int → QRes} {G : Triple → Prop} (ha : Answers get G) (p : Int) (hp : 0 ≤ p) :
    ∃ l, Lists2 l (fun o s => G ⟨s, p, o⟩) ∧ Gives (fun fuel => os get fuel p) l := by
  obtain ⟨out, it, a, b, c⟩ := permuted_two ha .pos hp
  refine ⟨_, ⟨c.1, fun x y => (c.2 x y).trans ?_⟩, collect_gives a b _⟩
  constructor
  · rintro ⟨⟨s, p', o'⟩, h, e⟩; cases e; exact h
  · intro h; exact ⟨_, h, rfl⟩

/-- **C99**: `all(permutation)` returns every triple once, its values in the order of the permutation and the list sorted by them. -/
theorem C99_all {get : Nat → Int → Int → Int → QRes} {G : Triple → Prop} (ha : Answers get G) (d : Order) :
    ∃ l, Lists3 l (fun x y z => ∃ t, G t ∧ t.at d.positions.1 = x ∧ t.at d.positions.2.1 = y ∧ t.at d.positions.2.2 = z) ∧ Gives (fun fuel => all get fuel d.idx) l := by
  obtain ⟨out, o, e1, e2, e3, e4⟩ := permuted_returns ha d (x1 := none) (x2 := none) (x3 := none) (by simp) (by simp) (by simp) (by simp) (by simp)
  refine ⟨_, ⟨?_, fun x y z => ?_⟩, collect_gives e1 e2 _⟩
  · refine List.pairwise_map.2 (e3.imp fun {r r'} hlt => ?_)
    simp only [Row3.lt, Pair.lt] at hlt
    exact hlt
  · rw [List.map_id', e4]
    constructor
    · rintro ⟨⟨t, h, e⟩, -⟩
      exact ⟨t, h, congrArg (·.1) e, congrArg (·.2.1) e, congrArg (·.2.2) e⟩
    · rintro ⟨t, h, rfl, rfl, rfl⟩
      exact ⟨⟨t, h, rfl⟩, by simp, by simp, by simp⟩

/-- **C99**: the calls of `field1()` on the iterator of `s_itr(p, o)` return the subjects in increasing order, and then -1 for ever. -/
theorem C99_s_itr {get : Nat → Int → Int → Int → QRes} {G : Triple → Prop} (ha : Answers get G) (p o : Int) (hp : 0 ≤ p) (ho : 0 ≤ o) :
    ∃ l it, Lists l (fun x => G ⟨x, p, o⟩) ∧ getPermuted get 1 o p (-1) = .itr it ∧ ∀ n, calls n (some it) = (l ++ List.replicate n (-1)).take n := by
  obtain ⟨out, it, a, b, c⟩ := permuted_one ha .ops ho hp
  refine ⟨_, it, ⟨c.1, fun x => (c.2 x).trans ?_⟩, a, fun n => calls_eq b n⟩
  constructor
  · rintro ⟨⟨s, p', o'⟩, h, e⟩; cases e; exact h
  · intro h; exact ⟨_, h, rfl⟩

theorem aggr_gives {kb : KB} {g : List Triple} (h : Loaded kb g) {E : Env} (hE : SortsPairs E.sortP) (hf : g.length < E.fuel) (d : Order) (hd : kb.Reads d) (k : Int) :
    ∃ l, Lists l (fun x => ∃ t ∈ g, d.key t = k ∧ (d.pair t).1 = x) ∧ Gives (fun fuel => collect (fun r => r.2.1) fuel (kb.getKeyA E d.idx k)) l := by
  have hd' : kb.present d.idx = true ∨ (d.idx ≥ 3 ∧ kb.present (d.idx - 3) = true) := hd
  unfold KB.getKeyA
  rw [if_pos hd']
  cases hk : kb.coords k with
  | some cs =>
    obtain ⟨out, a, b, c⟩ := h.getA_returns hE hf d hd' hk
    refine ⟨_, ⟨b, c⟩, ?_⟩
    have hw : ((kb.getA E d.idx cs).withKey k).Returns (out.map fun p => (k, p)) := withKey_yields a
    have := collect_gives (α := Int) (r := .itr ((kb.getA E d.idx cs).withKey k)) rfl hw fun r => r.2.1
    rw [List.map_map] at this
    exact this
  | none =>
    refine ⟨[], ⟨.nil, fun x => ⟨fun h => by simp at h, ?_⟩⟩, ?_⟩
    · rintro ⟨t, ht, hk', -⟩
      obtain ⟨d', hlt, hf', hkey, -⟩ := Diff3.Order.first_cases d
      have hp : kb.present d'.idx = true := by
        rw [← hf']
        unfold Diff3.first
        rcases hd' with h1 | h1
        · by_cases hl : d.idx < 3
          · rw [if_pos hl]; exact h1
          · rw [if_neg hl]; exact h.partner d.idx (by omega) h1
        · rw [if_neg (by omega)]; exact h1.2
      obtain ⟨cs, e, h1, -⟩ := h.complete d' hlt hp t ht
      rw [← hkey, hk', hk] at h1
      cases h1
    · have hw : (Obj.empty.withKey k).Returns (([] : List Pair).map fun p => (k, p)) := withKey_yields (o := Obj.empty) (.done rfl)
      exact collect_gives (α := Int) (r := .itr (Obj.empty.withKey k)) rfl hw fun r => r.2.1

/-- **C99**, `s_aggr_fromo(o)` on a stored graph: the subjects of the triples with the object. -/
theorem C99_s_from_o_partial {kb : KB} {g : List Triple} (h : Loaded kb g) {E : Env} (hE : SortsPairs E.sortP) (hf : g.length < E.fuel) (hd : kb.Reads .osp) (o : Int) :
    ∃ l, Lists l (fun x => ∃ p, ⟨x, p, o⟩ ∈ g) ∧ Gives (fun fuel => sFromO (kb.getKeyA E) fuel o) l := by
  obtain ⟨l, a, b⟩ := aggr_gives h hE hf .osp hd o
  refine ⟨l, ⟨a.1, fun x => (a.2 x).trans ?_⟩, b⟩
  constructor
  · rintro ⟨⟨s, p, o'⟩, ht, rfl, rfl⟩; exact ⟨p, ht⟩
  · rintro ⟨p, ht⟩; exact ⟨_, ht, rfl, rfl⟩

/-- **C99**, `o_aggr_froms(s)` on a stored graph: the objects of the triples with the subject. -/
theorem C99_o_from_s_partial {kb : KB} {g : List Triple} (h : Loaded kb g) {E : Env} (hE : SortsPairs E.sortP) (hf : g.length < E.fuel) (hd : kb.Reads .sop) (s : Int) :
    ∃ l, Lists l (fun x => ∃ p, ⟨s, p, x⟩ ∈ g) ∧ Gives (fun fuel => oFromS (kb.getKeyA E) fuel s) l := by
  obtain ⟨l, a, b⟩ := aggr_gives h hE hf .sop hd s
  refine ⟨l, ⟨a.1, fun x => (a.2 x).trans ?_⟩, b⟩
  constructor
  · rintro ⟨⟨s, p, o'⟩, ht, rfl, rfl⟩; exact ⟨p, ht⟩
  · rintro ⟨p, ht⟩; exact ⟨_, ht, rfl, rfl⟩

/-- **C99**, `o_aggr_fromp(p)` on a stored graph: the objects of the triples with the predicate. -/
theorem C99_o_from_p_partial {kb : KB} {g : List Triple} (h : Loaded kb g) {E : Env} (hE : SortsPairs E.sortP) (hf : g.length < E.fuel) (hd : kb.Reads .pos) (p : Int) :
    ∃ l, Lists l (fun x => ∃ s, ⟨s, p, x⟩ ∈ g) ∧ Gives (fun fuel => oFromP (kb.getKeyA E) fuel p) l := by
  obtain ⟨l, a, b⟩ := aggr_gives h hE hf .pos hd p
  refine ⟨l, ⟨a.1, fun x => (a.2 x).trans ?_⟩, b⟩
  constructor
  · rintro ⟨⟨s, p', o'⟩, ht, rfl, rfl⟩; exact ⟨s, ht⟩
  · rintro ⟨s, ht⟩; exact ⟨_, ht, rfl, rfl⟩

/-- **C99**: `all_s()`, `all_p()` and `all_o()` return the terms in the position, each once and in increasing order. -/
theorem C99_terms {getT : Nat → Option Obj} {ts : List Triple} (h : Sparql.Scan.AnswersT getT ts) (d : Order) :
    ∃ l, Lists l (fun x => ∃ t ∈ ts, t.at d.positions.1 = x) ∧ Gives (fun fuel => terms getT fuel d.idx) l := by
  obtain ⟨o, out, a, b, c⟩ := h d
  refine ⟨_, ⟨c.1, fun x => (c.2.1 x).trans ?_⟩, out.length + 1, fun fuel hf => ?_⟩
  · rw [List.mem_map]; exact Iff.rfl
  · simp only [terms, a, Option.map_some]
    rw [drain_eq b (by omega)]

/-! ## C100: counts -/

theorem merged_nil {O : Type _} (K : Upd.Ops O) (sec : Bool) (out : O) : Upd.merged K sec out [] = some out := rfl

/-- Without updates the lookups are those of the stored graph. -/
theorem getIteratorU_nil (kb : KB) (E : UEnv) (idx : Nat) (s p o : Int) : kb.getIteratorU E [] idx s p o = kb.getIterator E.toEnv idx s p o := by
  unfold KB.getIteratorU KB.getIterator
  by_cases h : kb.present idx = true ∨ (idx ≥ 3 ∧ kb.present (idx - 3) = true)
  · rw [if_pos h, if_pos h]
    simp only [List.map_nil, merged_nil, KB.main]
    by_cases h1 : (permute idx s p o).1 ≥ 0
    · rw [if_pos h1, if_pos h1]
      cases kb.coords (permute idx s p o).1 <;> rfl
    · rw [if_neg h1, if_neg h1]
      cases Scan.init kb idx <;> rfl
  · rw [if_neg h, if_neg h]

/-- **C25**, `getCardOnIndex`, the missing case on a stored graph without updates: with two fixed positions the number is that of the triples that match. -/
theorem C25_two_fixed_partial {kb : KB} {g : List Triple} (h : Loaded kb g) (E : UEnv) (hE : SortsPairs E.sortP) (hf : g.length < E.fuel) (C : Counts)
    (l : List Triple) (hl : l.Nodup) (hm : ∀ t, t ∈ l ↔ t ∈ g) (q : Pattern) (hq : q.Wf) (d : Order) (hd : kb.Reads d)
    (h1 : (q.at d.positions.1).isSome) (h2 : (q.at d.positions.2.1).isSome) (h3 : q.at d.positions.2.2 = none) :
    card kb E C [] [] d.idx (argOfPos q.s) (argOfPos q.p) (argOfPos q.o) = some (count l fun t => decide (q.Matches t)) := by
  have hd' : kb.present d.idx = true ∨ (d.idx ≥ 3 ∧ kb.present (d.idx - 3) = true) := hd
  obtain ⟨k, hk⟩ := Option.isSome_iff_exists.1 h1
  obtain ⟨v, hv⟩ := Option.isSome_iff_exists.1 h2
  have k0 : 0 ≤ k := hq _ _ hk
  have v0 : 0 ≤ v := hq _ _ hv
  obtain ⟨out, ⟨it, hit, hret⟩, hsort, hmem⟩ := C21_stored_partial kb g h E.toEnv hE hf q hq d hd (fun _ => h1) (by rw [h3]; simp) (.inr h1)
  have hmt : ∀ t, q.Matches t ↔ d.key t = k ∧ (d.pair t).1 = v := by
    intro t
    rw [matches_iff d, hk, hv, h3]; simp
  unfold card getCardOnIndex
  rw [permute_args, hk, if_neg (arg_some k0), getIteratorU_nil, hit]
  simp only
  by_cases hne : out = []
  · have hh : ¬ (it.I.hasNext it.s).1 = true := by rw [returns_hasNext hret]; simpa using hne
    rw [if_neg hh]
    simp only [Option.some.injEq]
    have : (l.countP fun t => decide (q.Matches t)) = 0 := by
      refine List.countP_eq_zero.2 fun t ht => ?_
      rw [decide_eq_true_eq]
      intro hm'
      have : d.row t ∈ out := (hmem _).2 ⟨t, (hm t).1 ht, hm', rfl⟩
      rw [hne] at this; simp at this
    rw [count, this]; rfl
  · have hcu : countUnbound (argOfPos q.s) (argOfPos q.p) (argOfPos q.o) = 1 := by
      rw [unbound_eq d q, hk, hv, h3]
      unfold countUnbound
      rw [if_neg (arg_some k0), if_neg (arg_some v0), if_pos arg_none]
    rw [if_pos ((returns_hasNext hret).2 hne), hcu, if_neg (by omega), if_pos rfl]
    simp only [List.isEmpty_nil, if_true]
    unfold KB.cardTwo
    rw [if_pos hd', permute_args, hk, hv, h3]
    simp only
    have ek : argOfPos (some k) = k := rfl
    have ev : argOfPos (some v) = v := rfl
    have en : argOfPos none = -1 := rfl
    rw [ek, ev, en, if_pos (show k ≥ 0 from k0)]
    obtain ⟨r, hr⟩ := List.exists_mem_of_ne_nil _ hne
    obtain ⟨t, ht, hmt', -⟩ := (hmem r).1 hr
    cases hc : kb.coords k with
    | some cs =>
      obtain ⟨ps, e, hs, hp⟩ := h.pairCard_eq hE hf d hd' hc v0
      simp only
      rw [e, count_pairs hl hm hs hp v]
      congr 1
      unfold countOf count
      rw [List.countP_eq_length_filter]
      congr 2
      refine List.filter_congr fun t _ => ?_
      simp only [hmt]
    | none =>
      obtain ⟨d', hlt, hf', hkey, -⟩ := Diff3.Order.first_cases d
      have hp : kb.present d'.idx = true := by
        rw [← hf']
        unfold Diff3.first
        rcases hd' with h1 | h1
        · by_cases hl : d.idx < 3
          · rw [if_pos hl]; exact h1
          · rw [if_neg hl]; exact h.partner d.idx (by omega) h1
        · rw [if_neg (by omega)]; exact h1.2
      obtain ⟨cs, e, a1, -⟩ := h.complete d' hlt hp t ht
      rw [← hkey, ((hmt t).1 hmt').1, hc] at a1
      cases a1

/-- **C100**: after any history of updates `exists(s, p, o)` says whether the triple is there, and `count_s`, `count_p` and `count_o` return the number of triples with the term. -/
theorem C100_counts (c : Config) (g : List T3) (h : c.Ok g) (m : Mem) (Mm : Nat → Maps) (E : UEnv) (S : Diff3.Sorts) (rnd : Nat → Nat → Nat → Bool × Bool)
    (M : Nat → Disk → Mapping) (ops : List (Bool × List T3)) (D : Disk) (H : AfterHistory (c.open' g m Mm) (g.map T3.triple) E S rnd M ops D)
    (L : InLimits (g.map T3.triple) E ops) (M' : Mapping) (hM' : M'.Of D) (l : List Triple) (hl : l.Nodup) (hc : ∀ t, t ∈ l ↔ content (g.map T3.triple) ops t)
    (hr : ∀ d, (c.open' g m Mm).Reads d) :
    let cd := card (c.open' g m Mm) E (c.counts g) D.ups (D.opened M')
    (∀ s p o, 0 ≤ s → 0 ≤ p → 0 ≤ o → exists' cd s p o = some (decide (⟨s, p, o⟩ ∈ l))) ∧
    (∀ s, 0 ≤ s → countS cd s = some (count l fun t => t.s = s)) ∧
    (∀ p, 0 ≤ p → countP cd p = some (count l fun t => t.p = p)) ∧
    ∀ o, 0 ≤ o → countO cd o = some (count l fun t => t.o = o) := by
  intro cd
  have key : ∀ (d : Order) (q : Pattern), q.Wf → ((q.at d.positions.2.1).isSome → (q.at d.positions.1).isSome) →
      ((q.at d.positions.2.2).isSome ↔ (q.at d.positions.2.1).isSome) →
      cd d.idx (argOfPos q.s) (argOfPos q.p) (argOfPos q.o) = some (count l fun t => decide (q.Matches t)) := by
    intro d q hq h1 h2
    show card _ _ _ _ _ _ _ _ _ = _
    unfold card
    rw [C25_card_on_index_partial c g h m Mm E S rnd M ops D H L M' hM' l hl hc d (hr d) q hq h1 h2]
    rfl
  refine ⟨fun s p o hs hp ho => ?_, fun s hs => ?_, fun p hp => ?_, fun o ho => ?_⟩
  · have := key .spo ⟨some s, some p, some o⟩ (by intro x v hv; cases x <;> cases hv <;> assumption) (by simp [Pattern.at, Order.positions]) (by simp [Pattern.at, Order.positions])
    have hm : ∀ t : Triple, Pattern.Matches ⟨some s, some p, some o⟩ t ↔ t = ⟨s, p, o⟩ := by
      intro t
      rw [matches_iff .spo]
      obtain ⟨a, b, c⟩ := t
      simp only [Pattern.at, Order.positions, Option.mem_def, Option.some.injEq, forall_eq', Triple.mk.injEq]
      exact Iff.rfl
    unfold exists'
    have e : cd 0 s p o = some (count l fun t => decide (Pattern.Matches ⟨some s, some p, some o⟩ t)) := this
    rw [e, Option.map_some]
    congr 1
    have : count l (fun t => decide (Pattern.Matches ⟨some s, some p, some o⟩ t)) = (l.count ⟨s, p, o⟩ : Nat) := by
      unfold count
      rw [List.count_eq_countP]
      congr 1
      refine List.countP_congr fun t _ => ?_
      rw [decide_eq_true_eq, hm]; simp
    rw [this, hl.count]
    by_cases hin : (⟨s, p, o⟩ : Triple) ∈ l <;> simp [hin]
  · have := key .spo ⟨some s, none, none⟩ (by intro x v hv; cases x <;> cases hv; assumption) (by simp [Pattern.at, Order.positions]) (by simp [Pattern.at, Order.positions])
    refine Eq.trans this ?_
    congr 2
    funext t
    exact decide_eq_decide.2 (matches_one .spo (k := s) rfl rfl rfl t)
  · have := key .pos ⟨none, some p, none⟩ (by intro x v hv; cases x <;> cases hv; assumption) (by simp [Pattern.at, Order.positions]) (by simp [Pattern.at, Order.positions])
    refine Eq.trans this ?_
    congr 2
    funext t
    exact decide_eq_decide.2 (matches_one .pos (k := p) rfl rfl rfl t)
  · have := key .ops ⟨none, none, some o⟩ (by intro x v hv; cases x <;> cases hv; assumption) (by simp [Pattern.at, Order.positions]) (by simp [Pattern.at, Order.positions])
    refine Eq.trans this ?_
    congr 2
    funext t
    exact decide_eq_decide.2 (matches_one .ops (k := o) rfl rfl rfl t)

/-- **C100**, `count_po(p, o)`, `n_s(p, o)` and `n_o(s, p)` on a stored graph without updates: the number of subjects, and of objects. -/
theorem C100_pairs_partial {kb : KB} {g : List Triple} (h : Loaded kb g) (E : UEnv) (hE : SortsPairs E.sortP) (hf : g.length < E.fuel) (C : Counts)
    (l : List Triple) (hl : l.Nodup) (hm : ∀ t, t ∈ l ↔ t ∈ g) (hr : ∀ d, kb.Reads d) (a b : Int) (ha : 0 ≤ a) (hb : 0 ≤ b) :
    countPO (card kb E C [] []) a b = some (count l fun t => t.p = a ∧ t.o = b) ∧
    countSP (card kb E C [] []) a b = some (count l fun t => t.s = a ∧ t.p = b) := by
  constructor
  · refine (C25_two_fixed_partial h E hE hf C l hl hm ⟨none, some a, some b⟩ (by intro x v hv; cases x <;> cases hv <;> assumption) .ops (hr _) rfl rfl rfl).trans ?_
    congr 2
    funext t
    have : Pattern.Matches ⟨none, some a, some b⟩ t ↔ t.p = a ∧ t.o = b := by
      rw [matches_iff .pos]; simp [Pattern.at, Order.positions]; exact Iff.rfl
    simp [this]
  · refine (C25_two_fixed_partial h E hE hf C l hl hm ⟨some a, some b, none⟩ (by intro x v hv; cases x <;> cases hv <;> assumption) .spo (hr _) rfl rfl rfl).trans ?_
    congr 2
    funext t
    have : Pattern.Matches ⟨some a, some b, none⟩ t ↔ t.s = a ∧ t.p = b := by
      rw [matches_iff .spo]; simp [Pattern.at, Order.positions]; exact Iff.rfl
    simp [this]

/-! ## C101: joins -/

/-- **C101**: `join_e2e` with two fixed values on each side returns the values that are in both answers, each once and in increasing order. -/
theorem C101_join_partial {get : Nat → Int → Int → Int → QRes} {G : Triple → Prop} (ha : Answers get G) (d d' : Order) (k v k' v' : Int) (hk : 0 ≤ k) (hv : 0 ≤ v) (hk' : 0 ≤ k')
    (hv' : 0 ≤ v') :
    ∃ l, Lists l (fun x => (∃ t, G t ∧ d.key t = k ∧ d.pair t = (v, x)) ∧ ∃ t, G t ∧ d'.key t = k' ∧ d'.pair t = (v', x)) ∧
      Gives (fun fuel => joinE2E get fuel d.idx k v d'.idx k' v') l := by
  obtain ⟨out, it, a, b, c⟩ := permuted_one ha d hk hv
  obtain ⟨out', it', a', b', c'⟩ := permuted_one ha d' hk' hv'
  have hg := (collect_gives a b fun r => r.2.2).both (collect_gives a' b' fun r => r.2.2) (k := fun fuel => joinE2E get fuel d.idx k v d'.idx k' v')
    (c := joinLoop (out.map fun r => r.2.2) (out'.map fun r => r.2.2)) (fun n h1 h2 => by
      simp only [joinE2E, h1, h2])
  refine ⟨_, ⟨c.1.sublist (joinLoop_sub _ _), fun x => ?_⟩, hg⟩
  rw [joinLoop_mem _ _ c.1 c'.1, c.2, c'.2]
  have : ∀ (d : Order) (k v : Int), (∃ t, G t ∧ d.row t = (k, (v, x))) ↔ ∃ t, G t ∧ d.key t = k ∧ d.pair t = (v, x) := by
    intro d k v
    refine exists_congr fun t => and_congr_right fun _ => ?_
    show (d.key t, d.pair t) = (k, (v, x)) ↔ _
    rw [Prod.mk.injEq]
  exact and_congr (this _ _ _) (this _ _ _)

/-- **C101**: `existsQuery(term, (p1, p2, o2), "?cxxcc")` says whether some `x` has the triples `(term, p1, x)` and `(x, p2, o2)`. -/
theorem C101_exists_query {get : Nat → Int → Int → Int → QRes} {G : Triple → Prop} (ha : Answers get G) (hG : ∀ t, G t → 0 ≤ t.s ∧ 0 ≤ t.p ∧ 0 ≤ t.o) (term p1 p2 o2 : Int) (h0 : 0 ≤ term)
    (h1 : 0 ≤ p1) (h2 : 0 ≤ p2) (h3 : 0 ≤ o2) :
    ∃ b, (b = true ↔ ∃ x, G ⟨term, p1, x⟩ ∧ G ⟨x, p2, o2⟩) ∧ Gives (fun fuel => existsQuery get fuel term p1 p2 o2) b := by
  obtain ⟨out, it, a, b, c⟩ := permuted_one ha .spo h0 h1
  obtain ⟨out', it', a', b', c'⟩ := permuted_one ha .ops h3 h2
  have hg := (collect_gives a b fun r => r.2.2).both (collect_gives a' b' fun r => r.2.2) (k := fun fuel => existsQuery get fuel term p1 p2 o2)
    (c := existsLoop (out.map fun r => r.2.2) (-1) (out'.map fun r => r.2.2)) (fun n h1 h2 => by
      have e1 : collect (fun r => r.2.2) n (getPermuted get 0 term p1 (-1)) = some (out.map fun r => r.2.2) := h1
      have e2 : collect (fun r => r.2.2) n (getPermuted get 1 o2 p2 (-1)) = some (out'.map fun r => r.2.2) := h2
      simp only [existsQuery, e1, e2])
  have m1 : ∀ x, x ∈ (out.map fun r => r.2.2) ↔ G ⟨term, p1, x⟩ := fun x => (c.2 x).trans (by
    constructor
    · rintro ⟨⟨s, p', o'⟩, h, e⟩; cases e; exact h
    · intro h; exact ⟨_, h, rfl⟩)
  have m2 : ∀ x, x ∈ (out'.map fun r => r.2.2) ↔ G ⟨x, p2, o2⟩ := fun x => (c'.2 x).trans (by
    constructor
    · rintro ⟨⟨s, p', o'⟩, h, e⟩; cases e; exact h
    · intro h; exact ⟨_, h, rfl⟩)
  refine ⟨_, ?_, hg⟩
  rw [existsLoop_spec _ _ _ c.1 (fun x hx => (hG _ ((m1 x).1 hx)).2.2) c'.1 (fun x hx => (hG _ ((m2 x).1 hx)).1) (.inl rfl)]
  constructor
  · rintro ⟨x, hx, h | h⟩
    · exact absurd rfl h.1
    · exact ⟨x, (m1 x).1 hx, (m2 x).1 h⟩
  · rintro ⟨x, hx, h⟩
    exact ⟨x, (m1 x).2 hx, .inr ((m2 x).2 h)⟩

/-- **C101** is false of `join_e2e` when the first value is not fixed (-1): the values are then not sorted, and common values are skipped.  With the triples `(0, 1, 5)`, `(0, 2, 3)`
and `(7, 1, 3)`, joining the objects of 0 with the objects of 7 returns nothing, though 3 is in both. -/
theorem C101_join_unbound_violated {get : Nat → Int → Int → Int → QRes}
    (ha : Answers get (· ∈ [(⟨0, 1, 5⟩ : Triple), ⟨0, 2, 3⟩, ⟨7, 1, 3⟩])) :
    Gives (fun fuel => joinE2E get fuel 0 0 (-1) 0 7 (-1)) [] := by
  obtain ⟨out, it, a, b, c⟩ := permuted_returns ha .spo (x1 := some 0) (x2 := none) (x3 := none) (by rintro v ⟨⟩; decide) (by simp) (by simp) (by simp) (by simp)
  obtain ⟨out', it', a', b', c'⟩ := permuted_returns ha .spo (x1 := some 7) (x2 := none) (x3 := none) (by rintro v ⟨⟩; decide) (by simp) (by simp) (by simp) (by simp)
  have ext : ∀ l l' : List Row3, l.Pairwise Row3.lt → l'.Pairwise Row3.lt → (∀ r, r ∈ l ↔ r ∈ l') → l = l' := by
    intro l
    induction l with
    | nil =>
      intro l' _ _ h
      cases l' with
      | nil => rfl
      | cons x l' => have := (h x).2 (by simp); simp at this
    | cons x l ih =>
      intro l' h1 h2 h
      cases l' with
      | nil => have := (h x).1 (by simp); simp at this
      | cons y l' =>
        obtain ⟨a1, a2⟩ := List.pairwise_cons.1 h1
        obtain ⟨b1, b2⟩ := List.pairwise_cons.1 h2
        have irr : ∀ r : Row3, ¬ Row3.lt r r := fun r hr => by simp only [Row3.lt, Pair.lt] at hr; omega
        have asym : ∀ r r' : Row3, Row3.lt r r' → ¬ Row3.lt r' r := fun r r' h h' => by simp only [Row3.lt, Pair.lt] at h h'; omega
        have hxy : x = y := by
          rcases List.mem_cons.1 ((h x).1 (by simp)) with e | e
          · exact e
          · rcases List.mem_cons.1 ((h y).2 (by simp)) with e' | e'
            · exact e'.symm
            · exact absurd (a1 y e') (asym _ _ (b1 x e))
        subst hxy
        congr 1
        refine ih l' a2 b2 fun r => ⟨fun hr => ?_, fun hr => ?_⟩
        · rcases List.mem_cons.1 ((h r).1 (by simp [hr])) with e | e
          · subst e; exact absurd (a1 _ hr) (irr _)
          · exact e
        · rcases List.mem_cons.1 ((h r).2 (by simp [hr])) with e | e
          · subst e; exact absurd (b1 _ hr) (irr _)
          · exact e
  have o1 : out = [(0, (1, 5)), (0, (2, 3))] := by
    refine ext _ _ c.1 (by simp [Row3.lt, Pair.lt]) fun r => (c.2 r).trans ?_
    obtain ⟨r1, r2, r3⟩ := r
    simp [Order.row, Order.key, Order.pair, Order.positions, Triple.at]
    omega
  have o2 : out' = [(7, (1, 3))] := by
    refine ext _ _ c'.1 (by simp) fun r => (c'.2 r).trans ?_
    obtain ⟨r1, r2, r3⟩ := r
    simp [Order.row, Order.key, Order.pair, Order.positions, Triple.at]
    omega
  subst o1 o2
  refine (collect_gives a b fun r => r.2.2).both (collect_gives a' b' fun r => r.2.2) (fun n h1 h2 => ?_)
  have e1 : collect (fun r => r.2.2) n (getPermuted get 0 0 (-1) (-1)) = some [5, 3] := h1
  have e2 : collect (fun r => r.2.2) n (getPermuted get 0 7 (-1) (-1)) = some [3] := h2
  simp only [joinE2E, e1, e2]
  simp [joinLoop]

/-! ## C102: degrees -/

theorem elements_eq {c : Config} {g : List T3} (h : c.Ok g) {l : List Triple} (hl : l.Nodup) (hm : ∀ t, t ∈ l ↔ t ∈ g.map T3.triple) {x : Nat × (Nat → Option TreeEl)} (hx : x ∈ c.tree g)
    (d d' : Order) (hd : d.idx < 3) (hkey : ∀ t, d'.key t = d.key t) (hp : permsOf c.nindices d.idx = true) (i j : Nat) (hij : (i = d.idx ∧ j = d'.idx) ∨ (i = d'.idx ∧ j = d.idx)) :
    elements x.2 i j = l.countP fun t => decide (d.key t = x.1) := by
  obtain ⟨-, -, t3⟩ := h.tree_spec
  have some' : ∀ (e : Order) r, (∀ t, e.key t = d.key t) → x.2 e.idx = some r → r.n = l.countP fun t => decide (d.key t = x.1) := by
    intro e r hk hr
    rw [t3 x hx] at hr
    obtain ⟨he, hek⟩ := (rec_some (h.mok.sorted e.idx)).1 hr
    have hpe : permsOf c.nindices e.idx = true := by
      apply Classical.byContradiction
      intro hi
      rw [ins_neg hi] at he
      simp at he
    rw [ins_pos hpe] at he
    obtain ⟨qs, hkq, -, hn, -⟩ := (h.load e.idx).2.1 r he
    rw [hn, keyPairs_length h hl hm (d := e) hkq (k := x.1) (by rw [hek])]
    exact List.countP_congr fun t _ => by rw [hk]
  have none' : x.2 d.idx = none → (l.countP fun t => decide (d.key t = x.1)) = 0 := by
    intro hn
    refine List.countP_eq_zero.2 fun t ht => ?_
    rw [decide_eq_true_eq]
    intro hk
    obtain ⟨u, hu, rfl⟩ := List.mem_map.1 ((hm t).1 ht)
    obtain ⟨ps, -, hq⟩ := (h.load d.idx).2.2.1 _ (h.mem_rows.2 ⟨u, hu, rfl⟩)
    obtain ⟨r, hr, hrk⟩ := hq (fun hs => by have := hs.1; simp only [Config.params] at this; omega)
    rw [← ins_pos hp] at hr
    have hxr : r.key = x.1 := by
      have : ((permRow d.idx u).1 : Int) = x.1 := by rw [permRow_key, hk]
      omega
    rw [t3 x hx, (rec_some (h.mok.sorted d.idx)).2 ⟨hr, hxr⟩] at hn
    cases hn
  unfold elements
  rcases hij with ⟨rfl, rfl⟩ | ⟨rfl, rfl⟩
  · cases e1 : x.2 d.idx with
    | some r => exact some' d r (fun _ => rfl) e1
    | none =>
      rw [none' e1]
      simp only
      cases e2 : x.2 d'.idx with
      | some r => simp only; rw [some' d' r hkey e2, none' e1]
      | none => rfl
  · cases e1 : x.2 d'.idx with
    | some r => exact some' d' r hkey e1
    | none =>
      simp only
      cases e2 : x.2 d.idx with
      | some r => exact some' d r (fun _ => rfl) e2
      | none => simp only; rw [none' e2]

/-- **C102** on a stored graph with six indices: `outdegree()`, `indegree()` and `degree()` list every term of the graph once, in increasing order, with the number of triples that have it
as subject, as object, and the sum of the two. -/
theorem C102_degrees_partial (c : Config) (g : List T3) (h : c.Ok g) (h6 : c.nindices = 6) (l : List Triple) (hl : l.Nodup) (hm : ∀ t, t ∈ l ↔ t ∈ g.map T3.triple) :
    ∃ ks : List Nat, ks.Pairwise (· < ·) ∧ (∀ k : Nat, k ∈ ks ↔ ∃ t ∈ l, t.s = (k : Int) ∨ t.p = (k : Int) ∨ t.o = (k : Int)) ∧
      outdegree (c.tree g) = ks.map (fun k : Nat => (k, l.countP fun t => t.s = (k : Int))) ∧
      indegree (c.tree g) = ks.map (fun k : Nat => (k, l.countP fun t => t.o = (k : Int))) ∧
      degree (c.tree g) = ks.map (fun k : Nat => (k, (l.countP fun t => t.s = (k : Int)) + l.countP fun t => t.o = (k : Int))) := by
  have hs : ∀ x ∈ c.tree g, elements x.2 3 0 = l.countP fun t => t.s = (x.1 : Int) := fun x hx =>
    elements_eq h hl hm hx .spo .sop (by decide) (fun _ => rfl) (by rw [h6]; rfl) 3 0 (.inr ⟨rfl, rfl⟩)
  have ho : ∀ i j, ((i = 1 ∧ j = 4) ∨ (i = 4 ∧ j = 1)) → ∀ x ∈ c.tree g, elements x.2 i j = l.countP fun t => t.o = (x.1 : Int) := fun i j hij x hx =>
    elements_eq h hl hm hx .ops .osp (by decide) (fun _ => rfl) (by rw [h6]; rfl) i j hij
  refine ⟨(c.tree g).map (·.1), h.tree_spec.1, fun k => ?_, ?_, ?_, ?_⟩
  · rw [mem_tree_keys h h6, mem_idsOf]
    constructor
    · rintro ⟨t, ht, hk⟩
      refine ⟨t.triple, (hm _).2 (List.mem_map.2 ⟨t, ht, rfl⟩), ?_⟩
      simp only [T3.triple]
      omega
    · rintro ⟨t, ht, hk⟩
      obtain ⟨u, hu, rfl⟩ := List.mem_map.1 ((hm t).1 ht)
      refine ⟨u, hu, ?_⟩
      simp only [T3.triple] at hk
      omega
  · unfold outdegree
    rw [List.map_map]
    exact List.map_congr_left fun x hx => by simp only [Function.comp, hs x hx]
  · unfold indegree
    rw [List.map_map]
    exact List.map_congr_left fun x hx => by simp only [Function.comp, ho 4 1 (.inr ⟨rfl, rfl⟩) x hx]
  · unfold degree
    rw [List.map_map]
    exact List.map_congr_left fun x hx => by simp only [Function.comp, hs x hx, ho 1 4 (.inl ⟨rfl, rfl⟩) x hx]

/-- **C102**: `n_triples()` is the number of triples that were loaded. -/
theorem C102_ntriples_partial (c : Config) (g : List T3) (h : c.Ok g) (l : List Triple) (hl : l.Nodup) (hm : ∀ t, t ∈ l ↔ t ∈ g.map T3.triple) : nTriples (c.counts g) = l.length := by
  unfold nTriples
  rw [h.inputSize hl hm]

/-- **C102** is false of `n_triples()` and of the degrees after updates: they are those of the graph that was loaded, whatever is added.  After the triple `(7, 8, 9)` was added to the two
triples `(1, 2, 3)` and `(4, 5, 6)`, there are three triples and one with subject 7, but 2 is returned and there is no entry for 7. -/
theorem C102_updates_violated : ∃ c g m Mm M D, Config.Ok c g ∧
    AfterHistory (c.open' g m Mm) (g.map T3.triple) exEnv msorts (fun _ _ _ => (true, false)) M [(true, [(7, 8, 9)])] D ∧
    (∀ t, content (g.map T3.triple) [(true, [(7, 8, 9)])] t ↔ t ∈ [(⟨1, 2, 3⟩ : Triple), ⟨4, 5, 6⟩, ⟨7, 8, 9⟩]) ∧
    nTriples (c.counts g) = 2 ∧ ∀ e ∈ outdegree (c.tree g), e.1 ≠ 7 := by
  obtain ⟨m, Mm, M, D, hMm, H, L⟩ := exSix_history [(true, [(7, 8, 9)])] ⟨by decide, by decide⟩ (by decide)
  refine ⟨exSix, exTwo, m, Mm, M, D, exSixOk, H, fun t => ?_, ?_, fun e he h7 => ?_⟩
  · show t ∈ exTwo.map T3.triple ∨ t ∈ [((7, 8, 9) : T3)].map T3.triple ↔ _
    simp [exTwo, T3.triple, or_assoc]
  · rw [C102_ntriples_partial exSix exTwo exSixOk (exTwo.map T3.triple) (by decide) (fun _ => Iff.rfl)]; rfl
  · obtain ⟨ks, -, h2, h3, -⟩ := C102_degrees_partial exSix exTwo exSixOk rfl (exTwo.map T3.triple) (by decide) (fun _ => Iff.rfl)
    rw [h3] at he
    obtain ⟨k, hk, rfl⟩ := List.mem_map.1 he
    simp only at h7
    subst h7
    have := (h2 7).1 hk
    revert this
    decide

/-- **C102** is false of `indegree()` if only one index is built: every number is 0. -/
theorem C102_one_index_violated (c : Config) (g : List T3) (h : c.Ok g) (h1 : c.nindices = 1) : ∀ e ∈ indegree (c.tree g), e.2 = 0 := by
  intro e he
  obtain ⟨x, hx, rfl⟩ := List.mem_map.1 he
  obtain ⟨-, -, t3⟩ := h.tree_spec
  have hn : ∀ i, i ≠ 0 → x.2 i = none := by
    intro i hi
    have hp : ¬ permsOf c.nindices i = true := by rw [h1]; simp [permsOf, hi]
    rw [t3 x hx, ins_neg hp]
    rfl
  show elements x.2 4 1 = 0
  unfold elements
  rw [hn 4 (by decide), hn 1 (by decide)]

/-! ## C103: the life of the object -/

/-- **C103**: after `Db(path)` every method works, also after further calls of `load`. -/
theorem C103_open_partial (oks : List Bool) : (oks.foldl Handle.load (Handle.new true)).sparql = .works ∧ (oks.foldl Handle.load (Handle.new true)).lookup = .works := by
  have : oks.foldl Handle.load (Handle.new true) = ⟨true, true, true⟩ := by
    induction oks with
    | nil => rfl
    | cons b oks ih => rw [List.foldl_cons]; exact ih
  rw [this]
  exact ⟨rfl, rfl⟩

/-- **C103**: after `Db()` and calls of `load`, one of which succeeded, the lookups work. -/
theorem C103_load_partial (oks : List Bool) (h : true ∈ oks) : (oks.foldl Handle.load (Handle.new false)).lookup = .works := by
  have key : ∀ (l : List Bool) (a : Handle), (a.kb = true ∧ a.q = true) ∨ (a.kb = false ∧ true ∈ l) → (l.foldl Handle.load a).lookup = .works := by
    intro l
    induction l with
    | nil =>
      rintro ⟨k, q, d⟩ (⟨h1, h2⟩ | ⟨-, h⟩)
      · simp only at h1 h2; subst h1 h2; rfl
      · simp at h
    | cons b l ih =>
      rintro ⟨k, q, d⟩ h
      rw [List.foldl_cons]
      apply ih
      rcases h with ⟨h1, h2⟩ | ⟨h1, h2⟩
      · simp only at h1 h2; subst h1 h2; exact .inl ⟨rfl, rfl⟩
      · simp only at h1; subst h1
        cases b with
        | true => exact .inl ⟨rfl, rfl⟩
        | false => exact .inr ⟨rfl, by simpa using h2⟩
  exact key oks _ (.inr ⟨rfl, h⟩)

/-- **C103** is false of `sparql` after `Db()` and `load`: the layer for queries was never created, and NULL is used.  The same holds for the lookups of an object without a graph. -/
theorem C103_sparql_violated (oks : List Bool) : (oks.foldl Handle.load (Handle.new false)).sparql = .undef ∧ (Handle.new false).lookup = .undef := by
  have key : ∀ (l : List Bool) (a : Handle), a.db = false → (l.foldl Handle.load a).db = false := by
    intro l
    induction l with
    | nil => exact fun a h => h
    | cons b l ih =>
      rintro ⟨k, q, d⟩ h
      rw [List.foldl_cons]
      apply ih
      simp only at h; subst h
      cases k <;> cases b <;> rfl
  refine ⟨?_, rfl⟩
  unfold Handle.sparql
  rw [key oks _ rfl]
  simp

/-! ## The hypotheses are met -/

/-- The objects of `(2, 4)` and the pairs of subject 7 in the example graph. -/
example : ∃ get l l', Gives (fun fuel => s get fuel 1 300) l ∧ 7 ∈ l ∧ Gives (fun fuel => po get fuel 7) l' ∧ (1, 2) ∈ l' ∧ (4, 7) ∉ l' := by
  obtain ⟨get, h⟩ := exAnswers
  obtain ⟨l, a, b⟩ := C99_s h 1 300 (by decide) (by decide)
  obtain ⟨l', a', b'⟩ := C99_po h 7 (by decide)
  exact ⟨get, l, l', b, (a.2 7).2 (by decide), b', (a'.2 1 2).2 (by decide), fun hh => absurd ((a'.2 4 7).1 hh) (by decide)⟩

/-- `(2, 4, 7)` and `(7, 1, 2)`: a path from 2 over 4 and 1 to 2. -/
example : ∃ get, Gives (fun fuel => existsQuery get fuel 2 4 1 2) true := by
  obtain ⟨get, h⟩ := exAnswers
  obtain ⟨b, h1, h2⟩ := C101_exists_query h (by
    have : ∀ t ∈ exGraph.map T3.triple, 0 ≤ t.s ∧ 0 ≤ t.p ∧ 0 ≤ t.o := by decide
    exact this) 2 4 1 2 (by decide) (by decide) (by decide) (by decide)
  have : b = true := h1.2 ⟨7, by decide, by decide⟩
  exact ⟨get, this ▸ h2⟩

/-- The join of the subjects of `(1, 300)` and of `(1, 2)`: subject 7 is in both. -/
example : ∃ get l, Gives (fun fuel => joinE2E get fuel 1 300 1 1 2 1) l ∧ 7 ∈ l := by
  obtain ⟨get, h⟩ := exAnswers
  obtain ⟨l, a, b⟩ := C101_join_partial h .ops .ops 300 1 2 1 (by decide) (by decide) (by decide) (by decide)
  refine ⟨get, l, b, (a.2 7).2 ⟨⟨⟨7, 1, 300⟩, by decide, rfl, rfl⟩, ⟨⟨7, 1, 2⟩, by decide, rfl, rfl⟩⟩⟩

/-- Counts on the example graph, without updates. -/
example : ∃ kb : KB, ∃ C, countPO (card kb exEnv C [] []) 1 2 = some 1 ∧ countSP (card kb exEnv C [] []) 7 1 = some 2 ∧ ∃ l, Gives (fun fuel => oFromP (kb.getKeyA exEnv.toEnv) fuel 1) l ∧ 300 ∈ l := by
  obtain ⟨m, M, hM⟩ := exists_mapped fun i => (exConfig.ins exGraph i).store.files
  have hr : ∀ d, (exConfig.open' exGraph m M).Reads d := by
    intro d
    unfold KB.Reads
    show permsOf 6 _ = true ∨ _ ∧ permsOf 6 _ = true
    cases d <;> decide
  have hl := exOk.loaded (fun i hi => hM i hi)
  have hf : (exGraph.map T3.triple).length < exEnv.fuel := by decide
  have hm : ∀ t, t ∈ exTriples ↔ t ∈ exGraph.map T3.triple := by
    have h1 : ∀ t ∈ exTriples, t ∈ exGraph.map T3.triple := by decide
    have h2 : ∀ t ∈ exGraph.map T3.triple, t ∈ exTriples := by decide
    exact fun t => ⟨h1 t, h2 t⟩
  refine ⟨exConfig.open' exGraph m M, exConfig.counts exGraph, ?_, ?_, ?_⟩
  · exact (C100_pairs_partial hl exEnv exEnv_ok.sortP hf _ exTriples (by decide) hm hr 1 2 (by decide) (by decide)).1.trans (by decide)
  · exact (C100_pairs_partial hl exEnv exEnv_ok.sortP hf _ exTriples (by decide) hm hr 7 1 (by decide) (by decide)).2.trans (by decide)
  · obtain ⟨l, a, b⟩ := C99_o_from_p_partial hl exEnv_ok.sortP hf (hr .pos) 1
    exact ⟨l, b, (a.2 300).2 ⟨7, by decide⟩⟩

/-- Degrees of the example graph with two triples. -/
example : ∃ e ∈ degree (exSix.tree exTwo), e = (4, 1) := by
  obtain ⟨ks, -, h2, -, -, h5⟩ := C102_degrees_partial exSix exTwo exSixOk rfl (exTwo.map T3.triple) (by decide) (fun _ => Iff.rfl)
  rw [h5]
  exact ⟨(4, 1), List.mem_map.2 ⟨4, (h2 4).2 (by decide), by decide⟩, rfl⟩

/-- Three updates of the example graph: `(7, 8, 9)` was added, and the triple with subject 4 was deleted. -/
example : ∃ m Mm M D M', AfterHistory (exSix.open' exTwo m Mm) (exTwo.map T3.triple) exEnv msorts (fun _ _ _ => (true, false)) M exThree D ∧
    exists' (card (exSix.open' exTwo m Mm) exEnv (exSix.counts exTwo) D.ups (D.opened M')) 7 8 9 = some true ∧
    countS (card (exSix.open' exTwo m Mm) exEnv (exSix.counts exTwo) D.ups (D.opened M')) 4 = some 0 ∧
    countP (card (exSix.open' exTwo m Mm) exEnv (exSix.counts exTwo) D.ups (D.opened M')) 8 = some 1 := by
  obtain ⟨m, Mm, M, D, hMm, H, L⟩ := exSix_history exThree ⟨by decide, by decide⟩ (by decide)
  obtain ⟨M', hM'⟩ := exists_mapping D
  obtain ⟨h1, h2, h3, -⟩ := C100_counts exSix exTwo exSixOk m Mm exEnv msorts _ M exThree D H L M' hM' [(⟨1, 2, 3⟩ : Triple), ⟨7, 8, 9⟩, ⟨8, 1, 1⟩] (by decide)
    (fun t => (exThree_content3 t).symm) (by
      intro d
      unfold KB.Reads
      show permsOf 6 _ = true ∨ _ ∧ permsOf 6 _ = true
      cases d <;> decide)
  exact ⟨m, Mm, M, D, M', H, (h1 7 8 9 (by decide) (by decide) (by decide)).trans (by decide), (h2 4 (by decide)).trans (by decide), (h3 8 (by decide)).trans (by decide)⟩

/-- All triples of the example graph in the order predicate, object, subject. -/
example : ∃ get l, Gives (fun fuel => all get fuel 2) l ∧ (1, 300, 7) ∈ l ∧ (1, 7, 300) ∉ l := by
  obtain ⟨get, h⟩ := exAnswers
  obtain ⟨l, a, b⟩ := C99_all h .pos
  refine ⟨get, l, b, (a.2 1 300 7).2 ⟨⟨7, 1, 300⟩, by decide, rfl, rfl, rfl⟩, fun hh => ?_⟩
  obtain ⟨⟨s, p, o⟩, ht, rfl, e2, e3⟩ := (a.2 1 7 300).1 hh
  simp only [Order.positions, Triple.at] at e2 e3
  subst e2 e3
  revert ht
  decide

/-- The predicates of the example graph with two triples. -/
example : ∃ getT l, Gives (fun fuel => terms getT fuel 2) l ∧ 5 ∈ l ∧ 4 ∉ l := by
  obtain ⟨m, Mm, hMm⟩ := exists_mapped fun i => (exSix.ins exTwo i).store.files
  have ha := answersT_stored exSix exTwo exSixOk (by decide) hMm exEnv.toEnv id (ts := exTwo.map T3.triple) (by decide) (fun _ => Iff.rfl) (by
    intro d
    unfold KB.Reads
    show permsOf 6 _ = true ∨ _ ∧ permsOf 6 _ = true
    cases d <;> decide)
  obtain ⟨l, a, b⟩ := C99_terms ha .pos
  exact ⟨_, l, b, (a.2 5).2 (by decide), fun h => absurd ((a.2 4).1 h) (by decide)⟩

/-- A graph with one index. -/
theorem exOneIndexOk : Config.Ok ⟨1, false, 2, none, 10, false, 9, 20, sortRows⟩ exTwo where
  sort := sortRows_sorts
  nindices := by decide
  skip := by decide
  fixed := .inl rfl
  ids := by decide
  len := by decide
  nfiles := by
    intro i
    by_cases hi : i < 6
    · have : ∀ i, i < 6 → (Config.ins ⟨1, false, 2, none, 10, false, 9, 20, sortRows⟩ exTwo i).store.files.length ≤ 2 ^ 15 := by decide +kernel
      exact this i hi
    · have : ¬ permsOf 1 i = true := fun h => hi (permsOf_lt h)
      rw [ins_neg this]; decide
  fsize := by
    intro i
    by_cases hi : i < 6
    · have : ∀ i, i < 6 → ∀ f ∈ (Config.ins ⟨1, false, 2, none, 10, false, 9, 20, sortRows⟩ exTwo i).store.files, f.bytes.length < 2 ^ 40 := by decide +kernel
      exact this i hi
    · have : ¬ permsOf 1 i = true := fun h => hi (permsOf_lt h)
      rw [ins_neg this]; decide

example : ∀ e ∈ indegree (Config.tree ⟨1, false, 2, none, 10, false, 9, 20, sortRows⟩ exTwo), e.2 = 0 := C102_one_index_violated _ _ exOneIndexOk rfl

/-- The graph of `C101_join_unbound_violated` can be loaded. -/
theorem exUnboundOk : Config.Ok exSix [(0, 1, 5), (0, 2, 3), (7, 1, 3)] where
  sort := sortRows_sorts
  nindices := by decide
  skip := by decide
  fixed := .inl rfl
  ids := by decide
  len := by decide
  nfiles := by
    intro i
    by_cases hi : i < 6
    · have : ∀ i, i < 6 → (exSix.ins [(0, 1, 5), (0, 2, 3), (7, 1, 3)] i).store.files.length ≤ 2 ^ 15 := by decide +kernel
      exact this i hi
    · have : ¬ permsOf 6 i = true := fun h => hi (permsOf_lt h)
      rw [show exSix.ins [(0, 1, 5), (0, 2, 3), (7, 1, 3)] i = _ from ins_neg this]; decide
  fsize := by
    intro i
    by_cases hi : i < 6
    · have : ∀ i, i < 6 → ∀ f ∈ (exSix.ins [(0, 1, 5), (0, 2, 3), (7, 1, 3)] i).store.files, f.bytes.length < 2 ^ 40 := by decide +kernel
      exact this i hi
    · have : ¬ permsOf 6 i = true := fun h => hi (permsOf_lt h)
      rw [show exSix.ins [(0, 1, 5), (0, 2, 3), (7, 1, 3)] i = _ from ins_neg this]; decide

example : ∃ get, Answers get (· ∈ [(⟨0, 1, 5⟩ : Triple), ⟨0, 2, 3⟩, ⟨7, 1, 3⟩]) ∧ Gives (fun fuel => joinE2E get fuel 0 0 (-1) 0 7 (-1)) [] := by
  obtain ⟨m, M, hM⟩ := exists_mapped fun i => (exSix.ins [(0, 1, 5), (0, 2, 3), (7, 1, 3)] i).store.files
  have ha := answers_stored (exUnboundOk.loaded (fun i hi => hM i hi)) (E := exEnv.toEnv) exEnv_ok.sortP (show 3 < 100 by omega) (by decide) (by
    intro d
    unfold KB.Reads
    show permsOf 6 _ = true ∨ _ ∧ permsOf 6 _ = true
    cases d <;> decide)
  exact ⟨_, ha, C101_join_unbound_violated ha⟩

end Trident.Python
