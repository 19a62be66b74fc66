import Verif.Update.ReOrder
import Verif.Query.ReOrderProofs
import Verif.Update.UpdaterProofs
/-! Helper lemmas for queries in an order that is not stored, on the stored graph and on a graph with updates. -/
namespace Trident
open Strat ReOrder Upd Load

variable {kb : KB} {g : List Triple}

theorem not_reads {d : Order} (hp : kb.present 0 = true) (hd : ¬ kb.Reads d) : d ≠ .spo ∧ d ≠ .sop := by
  constructor
  · rintro rfl; exact hd (.inl hp)
  · rintro rfl; exact hd (.inr ⟨by decide, hp⟩)

/-- The rows that are kept are those of the matching triples. -/
theorem kept_rows (q : Pattern) (hq : q.Wf) (T : Triple → Prop) (l : List Row3)
    (hl : ∀ r, r ∈ l ↔ ∃ t, T t ∧ (∀ v ∈ q.s, t.at .s = v) ∧ ((∃ v, q.s = some v ∧ q.p ≠ none) → q.Matches t) ∧ Order.spo.row t = r) :
    ∀ r, r ∈ l.filter (keeps (argOfPos q.p) (argOfPos q.o)) ↔ ∃ t, (T t ∧ q.Matches t) ∧ Order.spo.row t = r := by
  intro r
  rw [List.mem_filter, hl]
  constructor
  · rintro ⟨⟨t, h1, h2, h3, rfl⟩, h4⟩
    obtain ⟨a, b⟩ := (keeps_iff q hq t).1 h4
    exact ⟨t, ⟨h1, fun x => match x with | .s => h2 | .p => a | .o => b⟩, rfl⟩
  · rintro ⟨t, ⟨h1, h2⟩, rfl⟩
    exact ⟨⟨t, h1, h2 .s, fun _ => h2, rfl⟩, (keeps_iff q hq t).2 ⟨h2 .p, h2 .o⟩⟩

/-- The helper for a fixed subject, on the stored graph. -/
theorem Loaded.helper_fixed (h : Loaded kb g) {E : Env} (G : KeySeek) (hf : g.length < E.fuel) (hp : kb.present 0 = true) (q : Pattern) (hq : q.Wf)
    {k : Int} (hk : q.s = some k) :
    ∃ H rows, kb.helper E G (argOfPos q.s) (argOfPos q.p) (argOfPos q.o) = some H ∧ collect H (argOfPos q.p) (argOfPos q.o) E.fuel H.s = some rows ∧
      rows.Pairwise Row3.lt ∧ ∀ r, r ∈ rows ↔ ∃ t, (t ∈ g ∧ q.Matches t) ∧ Order.spo.row t = r := by
  have hk0 : 0 ≤ k := hq .s k hk
  have hk' : argOfPos q.s = k := by rw [hk]; rfl
  have hp0 : ∀ v ∈ q.p, 0 ≤ v := hq .p
  have ho0 : ∀ v ∈ q.o, 0 ≤ v := hq .o
  -- the rows of the lookup
  have key : ∃ (x : Obj3) (l : List Row3), kb.getIterator E 0 (argOfPos q.s) (argOfPos q.p) (argOfPos q.o) = .itr x ∧ Yields x.I x.s l ∧ l.Pairwise Row3.lt ∧
      ∀ r, r ∈ l ↔ ∃ t ∈ g, t.at .s = k ∧ (q.p ≠ none → q.Matches t) ∧ Order.spo.row t = r := by
    unfold KB.getIterator
    rw [if_pos (.inl hp)]
    simp only [permute, hk']
    rw [if_pos hk0]
    cases hc : kb.coords k with
    | none =>
      refine ⟨_, [], rfl, .done rfl, .nil, fun r => ⟨fun h => absurd h List.not_mem_nil, ?_⟩⟩
      rintro ⟨t, ht, e1, -⟩
      obtain ⟨cs, e, q1, -⟩ := h.complete .spo (by decide) hp t ht
      rw [show Order.spo.key t = t.at .s from rfl, e1, hc] at q1
      simp at q1
    | some cs =>
      dsimp only
      cases hcs : cs 0 with
      | none =>
        refine ⟨_, [], rfl, withKey_yields (l := []) ?_, .nil, fun r => ⟨fun h => absurd h List.not_mem_nil, ?_⟩⟩
        · unfold KB.get; rw [hcs]; exact .done rfl
        · rintro ⟨t, ht, e1, -⟩
          obtain ⟨cs', e, q1, q2⟩ := h.complete .spo (by decide) hp t ht
          rw [show Order.spo.key t = t.at .s from rfl, e1, hc] at q1
          obtain rfl := Option.some.inj q1
          rw [show Order.spo.idx = 0 from rfl, hcs] at q2
          simp at q2
      | some e =>
        obtain ⟨ps, g1, g2⟩ := h.tables .spo k cs e hc hcs
        have hr := g1.returns (argOfPos q.p) (argOfPos q.o)
        rw [optOf_argOfPos hp0, optOf_argOfPos ho0] at hr
        refine ⟨_, _, rfl, withKey_yields (l := matching ps q.p q.o) ?_, ?_, ?_⟩
        · unfold KB.get; rw [hcs]; exact hr
        · exact List.pairwise_map.2 ((g1.sorted.sublist List.filter_sublist).imp fun h => .inr ⟨rfl, h⟩)
        · intro r
          rw [List.mem_map]
          have hm : ∀ t : Triple, t.at .s = k → (q.Matches t ↔ (∀ v ∈ q.p, t.at .p = v) ∧ ∀ v ∈ q.o, t.at .o = v) := by
            intro t ht
            constructor
            · intro h; exact ⟨h .p, h .o⟩
            · rintro ⟨a, b⟩ x
              cases x
              · show ∀ v ∈ q.s, _
                rw [hk]; rintro v ⟨⟩; exact ht
              · exact a
              · exact b
          cases hqp : q.p with
          | none =>
            rw [matching_none]
            constructor
            · rintro ⟨p, hp, rfl⟩
              obtain ⟨t, ht, e1, e2⟩ := (g2 p).1 hp
              exact ⟨t, ht, e1, fun hn => absurd rfl hn, Prod.ext e1 e2⟩
            · rintro ⟨t, ht, e1, -, rfl⟩
              exact ⟨Order.spo.pair t, (g2 _).2 ⟨t, ht, e1, rfl⟩, Prod.ext e1.symm rfl⟩
          | some v =>
            constructor
            · rintro ⟨p, hp, rfl⟩
              rw [mem_matching (by simp)] at hp
              obtain ⟨t, ht, e1, rfl⟩ := (g2 p).1 hp.1
              exact ⟨t, ht, e1, fun _ => (hm t e1).2 (by rw [hqp]; exact hp.2), Prod.ext e1 rfl⟩
            · rintro ⟨t, ht, e1, e2, rfl⟩
              refine ⟨Order.spo.pair t, ?_, Prod.ext e1.symm rfl⟩
              rw [mem_matching (by simp)]
              have := (hm t e1).1 (e2 (by simp))
              rw [hqp] at this
              exact ⟨(g2 _).2 ⟨t, ht, e1, rfl⟩, this⟩
  obtain ⟨x, l, e1, e2, e3, e4⟩ := key
  have hlen := rows_length .spo e3 (fun r hr => by
    obtain ⟨t, ht, -, -, e⟩ := (e4 r).1 hr
    exact ⟨t, ht, e⟩)
  refine ⟨⟨x.σ, x.I, fun _ _ => none, x.s⟩, _, ?_, collect_noJump (coll_yields ⟨x.σ, x.I, fun _ _ => none, x.s⟩) _ _ E.fuel l x.s e2 (by omega) ?_, e3.sublist List.filter_sublist, ?_⟩
  · unfold KB.helper
    rw [if_pos (by rw [hk']; exact hk0), e1]
  · intro r hr
    obtain ⟨t, ht, -, hm, rfl⟩ := (e4 r).1 hr
    cases hqp : q.p with
    | none => simp [jumps, argOfPos]
    | some v =>
      have : t.at .p = v := hm (by rw [hqp]; simp) .p v hqp
      show (_ && decide (t.at .p > v)) = false
      rw [this]; simp
  · refine kept_rows q hq (· ∈ g) l (fun r => (e4 r).trans ?_)
    constructor
    · rintro ⟨t, ht, h1, h2, h3⟩
      exact ⟨t, ht, by rw [hk]; rintro v ⟨⟩; exact h1, fun ⟨_, _, hn⟩ => h2 hn, h3⟩
    · rintro ⟨t, ht, h1, h2, h3⟩
      exact ⟨t, ht, h1 k hk, fun hn => h2 ⟨k, hk, hn⟩, h3⟩

/-- The helper for a free subject, on the stored graph. -/
theorem Loaded.helper_free (h : Loaded kb g) {E : Env} {G : KeySeek} (hG : SeekOk G) (hf : g.length < E.fuel) (hp : kb.present 0 = true) (hg : g ≠ [])
    (q : Pattern) (hq : q.Wf) (hk : q.s = none) :
    ∃ H rows, kb.helper E G (argOfPos q.s) (argOfPos q.p) (argOfPos q.o) = some H ∧ collect H (argOfPos q.p) (argOfPos q.o) E.fuel H.s = some rows ∧
      rows.Pairwise Row3.lt ∧ ∀ r, r ∈ rows ↔ ∃ t, (t ∈ g ∧ q.Matches t) ∧ Order.spo.row t = r := by
  obtain ⟨s, ps, l, a, b, c, e⟩ := h.scanAt hp hg
  have hlen := rows_length .spo c (fun r hr => (e r).1 hr)
  refine ⟨scanHelper kb E G s, _, ?_, collect_eq (coll_scan ps s) _ _ (.inl (jumps_scan hG ps s)) _ l s b (by omega) c, c.sublist List.filter_sublist, ?_⟩
  · unfold KB.helper
    rw [if_neg (by rw [hk]; simp [argOfPos]), a]
    rfl
  · refine kept_rows q hq (· ∈ g) l (fun r => (e r).trans ?_)
    rw [hk]
    constructor
    · rintro ⟨t, ht, h3⟩
      exact ⟨t, ht, by simp, by simp, h3⟩
    · rintro ⟨t, ht, -, -, h3⟩
      exact ⟨t, ht, h3⟩

/-- An exception at the first row with a greater predicate, if the helper cannot jump. -/
theorem collect_throws {H : Helper} (hgk : ∀ k s, H.gk k s = none) {p o : Int} :
    ∀ n l s, Yields H.I s l → l.length < n → (∃ r ∈ l, jumps p r = true) → collect H p o n s = none := by
  intro n
  induction n with
  | zero => intro l s _ h; omega
  | succ n ih =>
    intro l s hs hl hp
    cases l with
    | nil => obtain ⟨r, hr, -⟩ := hp; simp at hr
    | cons r l =>
      obtain ⟨h1, h2, h3⟩ := yields_cons.1 hs
      rw [List.length_cons] at hl
      rw [collect]
      simp only [h1, if_true, h2]
      by_cases hj : jumps p r = true
      · rw [if_pos hj, hgk]; rfl
      · rw [if_neg hj]
        obtain ⟨x, hx, hxj⟩ := hp
        have hx' : x ∈ l := by
          rcases List.mem_cons.1 hx with rfl | hx
          · exact absurd hxj hj
          · exact hx
        rw [ih l _ h3 (by omega) ⟨x, hx', hxj⟩]
        split <;> rfl

theorem holdsAfter_nonneg {P : Triple → Prop} (ops : List (Bool × List T3)) (h : ∀ t, P t → ∀ x, 0 ≤ t.at x) :
    ∀ t, holdsAfter P (ops.map fun u => request u.1 u.2) t → ∀ x, 0 ≤ t.at x := by
  induction ops generalizing P with
  | nil => exact h
  | cons u ops ih =>
    obtain ⟨a, ts⟩ := u
    cases a
    · exact ih (P := fun t => P t ∧ t ∉ ts.map T3.triple) fun t ht => h t ht.1
    · refine ih (P := fun t => P t ∨ t ∈ ts.map T3.triple) fun t ht => ?_
      rcases ht with ht | ht
      · exact h t ht
      · obtain ⟨u, -, rfl⟩ := List.mem_map.1 ht
        intro x
        cases x <;> simp [T3.triple, Triple.at]

/-- Updates without rows change nothing. -/
theorem applyAll_empty (us : List Update) (h : ∀ u ∈ us, u.triples = []) (g : List Triple) : applyAll g us = g := by
  induction us generalizing g with
  | nil => rfl
  | cons u us ih =>
    show applyAll (u.apply g) us = g
    rw [ih (fun x hx => h x (by simp [hx]))]
    have := h u (by simp)
    cases u with
    | add ts => have : ts = [] := this; subst this; exact List.append_nil g
    | del ts => have : ts = [] := this; subst this; exact List.filter_eq_self.2 (by simp)

theorem applyAll_length (us : List Update) (g : List Triple) : (applyAll g us).length ≤ g.length + (us.map (·.triples.length)).sum := by
  induction us generalizing g with
  | nil => simp [applyAll]
  | cons u us ih =>
    have h5 := ih (u.apply g)
    have h6 : (u.apply g).length ≤ g.length + u.triples.length := by
      cases u with
      | add ts => simp [Update.apply, Update.triples]
      | del ts => have := List.length_filter_le (fun t => decide (t ∉ ts)) g; simp only [Update.apply, Update.triples]; omega
    show (applyAll (u.apply g) us).length ≤ _
    rw [List.map_cons, List.sum_cons]
    omega

theorem rows_fit (g : List Triple) (us : List Update) {n : Nat} (hn : g.length + (us.map (·.triples.length)).sum < n) (l : List Row3)
    (h1 : l.Pairwise Row3.lt) (h2 : ∀ r ∈ l, ∃ t ∈ applyAll g us, Order.spo.row t = r) : l.length < n := by
  have := rows_length .spo h1 h2
  have := applyAll_length us g
  omega

/-- If no update has a row, the updates are empty. -/
theorem diffs_empty {us : List Update} {ds : List Diff3.Diff} (hlen : ds.length = us.length)
    (hds : ∀ i (_ : i < us.length) (h' : i < ds.length), Diff3.DiffOkAt ds[i] .spo us[i].triples)
    (hn : (ds.any fun D => (D.scan 0).hasNext) = false) : ∀ u ∈ us, u.triples = [] := by
  intro u hu
  obtain ⟨i, hi, rfl⟩ := List.mem_iff_getElem.1 hu
  have hi' : i < ds.length := by omega
  obtain ⟨out, a, b⟩ := DiffOk_scan .spo (hds i hi hi')
  have hh : ((ds[i].scan 0).I.hasNext (ds[i].scan 0).s).1 = false := by
    rw [List.any_eq_false] at hn
    have := hn ds[i] (List.getElem_mem hi')
    exact Bool.eq_false_iff.2 this
  have ho : out = [] := a.2.1.unique (.done hh)
  cases ht : us[i].triples with
  | nil => rfl
  | cons t ts =>
    have := (b (Order.spo.row t)).2 ⟨t, by rw [ht]; simp, rfl⟩
    rw [ho] at this
    simp at this

end Trident
