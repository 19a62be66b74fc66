import Verif.Update.MergeUpdatesProofs
import Verif.Props.Crash
/-!
# C26: merging updates preserves the content
-/
namespace Trident
open Load Upd

/-- The triples `g` are stored, without repetitions, and can be read in the order SPO; `base` lists their subjects; the sorting functions sort. -/
structure Ground (kb : KB) (g : List Triple) (E : UEnv) (S : Diff3.Sorts) (sortT : Sorter) (base : Obj) : Prop where
  loaded : Loaded kb g
  notEmpty : g ≠ []
  nodup : g.Nodup
  reads : kb.Reads .spo
  envOk : E.Ok
  sortsOk : S.Ok
  sortT : ∀ cs, Composite.SortSpecD (famItr cs) (sortT cs)
  subjects : base.I.Idem ∧ ∃ l, base.Returns l ∧ IsTermList (g.map (·.s)) l

/-- The requests `ops` were made, and `X` is the directory of updates now, with the number of subjects stored with each update. -/
structure Recorded26 (kb : KB) (g : List Triple) (E : UEnv) (S : Diff3.Sorts) (sortT : Sorter) (base : Obj) (rnd : Nat → Nat → Nat → Bool × Bool)
    (M : Nat → Disk → Mapping) (ops : List (Bool × List T3)) (X : Counted) : Prop where
  ground : Ground kb g E S sortT base
  mapped : ∀ n D, (M n D).Of D
  done : updatesC kb E S sortT base rnd M 0 Counted.empty ops = some X

/-- The requests as the specification has them. -/
abbrev requests (ops : List (Bool × List T3)) : List Update := ops.map fun u => request u.1 u.2

/-! ## Helpers -/

/-- What is known after a history. -/
structure Facts26 (g : List Triple) (E : UEnv) (sortT : Sorter) (base : Obj) (ops : List (Bool × List T3)) (X : Counted) (us : List Update) : Prop where
  ok : CountedOk sortT E.fuel base g X us
  vol : (us.map (·.triples.length)).sum ≤ volume ops
  sem : ∀ t, t ∈ applyAll g us ↔ content g ops t
  seen : SubjectsChange (· ∈ g) (requests ops) → seen us X.ns = us
  new : NeverBack g (· ∈ g) (requests ops) → AddsNew g us

theorem Recorded26.facts {kb g E S sortT base rnd M ops X} (H : Recorded26 kb g E S sortT base rnd M ops X) (L : InLimits g E ops) :
    ∃ us, Facts26 g E sortT base ops X us ∧ updates kb E S rnd M 0 Disk.empty ops = some X.disk := by
  have G := H.ground
  have h1 := L.volume
  have h2 := L.fuel
  obtain ⟨X', us, a1, a2, a3, a4, a5, a6, a7⟩ := updatesC_spec G.loaded G.envOk G.sortsOk sortT base rnd G.notEmpty G.reads H.mapped ops 0 (CountedOk.empty sortT E.fuel base g)
    L.fit (by simpa using h1) (by simp; omega) (SubjectsChange (· ∈ g) (requests ops)) (NeverBack g (· ∈ g) (requests ops)) (fun h => ⟨trivial, h⟩) (fun h => ⟨fun u hu => by simp at hu, h⟩)
  rw [H.done] at a1
  obtain rfl : X = X' := by simpa using a1
  obtain ⟨hid, l, hb, hl⟩ := G.subjects
  refine ⟨us, ⟨a3, by simpa using a4, a5, fun h => ?_, a7⟩, a2⟩
  have hs : (us.map (·.triples.length)).sum ≤ volume ops := by simpa using a4
  exact seen_all a3.len (a3.pos G.sortT G.nodup hid hb hl (a6 h) (by omega))

/-- What merging does in the good case. -/
theorem Recorded26.merged {kb g E S sortT base rnd M ops X} (H : Recorded26 kb g E S sortT base rnd M ops X) (L : InLimits g E ops) (hv : volume ops < 2 ^ 24)
    (hs : SubjectsChange (· ∈ g) (requests ops)) (hb : NeverBack g (· ∈ g) (requests ops)) {M' : Mapping} (hM' : M'.Of X.disk) (rnd' : Nat → Nat → Nat → Bool × Bool) :
    ∃ us N TA TR, Facts26 g E sortT base ops X us ∧ Parts g us S rnd' N TA TR ((us.map (·.triples.length)).sum) ∧
      (FreshAll g (batch true TA ++ batch false TR) ∧ ∀ t, t ∈ applyAll g (batch true TA ++ batch false TR) ↔ content g ops t) ∧ (∀ t ∈ left true us, t ∉ g) ∧
      mergeUpdates kb E S rnd' M' X =
        if (us.filter fun u => isAdd u == true).length ≤ 1 ∧ (us.filter fun u => isAdd u == false).length ≤ 1 then .same
        else if N.ups.isEmpty then .failed else .done N := by
  have G := H.ground
  obtain ⟨us, F, -⟩ := H.facts L
  have h2 := L.fuel
  have h3 := F.vol
  have hse := F.seen hs
  obtain ⟨f1, f2, f3, f4, f5⟩ := net_fold (g := g) (A := []) (R := []) F.ok.disk.fresh (by simp) (by simp) (by simp)
  obtain ⟨N, TA, TR, P, e⟩ := mergeUpdates_spec G.loaded G.envOk G.notEmpty G.reads G.sortsOk rnd' F.ok hM' (by
    rw [hse]; intro a; cases a
    · exact f2
    · exact f1) (by omega) (by omega) (by rw [hse]; exact fun u hu => ⟨u, hu, rfl⟩)
  rw [hse] at P
  have hAg : ∀ t ∈ left true us, t ∉ g := by
    intro t ht
    obtain ⟨u, hu, hk, hut⟩ := left_mem ht
    exact F.new hb u hu hk t hut
  refine ⟨us, N, TA, TR, F, P, ⟨(P.shows hAg).1, fun t => ?_⟩, hAg, e⟩
  rw [(P.shows hAg).2, ← F.sem, f5 t]
  have dis : t ∈ sumOf true us → t ∈ sumOf false us → False := fun a b => f4 t b (f3 t a)
  have e1 : t ∈ left true us ↔ t ∈ sumOf true us := by
    unfold left; rw [List.mem_filter]
    exact ⟨fun h => h.1, fun h => ⟨h, by simpa using fun hh => dis h hh⟩⟩
  have e2 : t ∈ left false us ↔ t ∈ sumOf false us := by
    unfold left; rw [List.mem_filter]
    exact ⟨fun h => h.1, fun h => ⟨h, by simpa using fun hh => dis hh h⟩⟩
  have e3 : t ∈ left true us → t ∉ g := hAg t
  rw [e1] at e3
  rw [e1, e2]
  show _ ↔ t ∈ sumOf true us ∨ t ∈ g ∧ t ∉ sumOf false us
  constructor
  · rintro ⟨h | h, h'⟩
    · exact .inr ⟨h, fun x => h' ⟨x, h⟩⟩
    · exact .inl h
  · rintro (h | ⟨h, h'⟩)
    · exact ⟨.inr h, fun x => e3 h x.2⟩
    · exact ⟨.inl h, fun x => h' x.1⟩

/-! ## Theorems -/

/-- **C26 (part).** If every request that changes the graph changes the set of subjects, and no stored triple is added back after it was deleted, then after merging,
all queries in all orders return what they did before. Merging is never undefined; it fails with an exception only if the updates cancel out completely; otherwise at
most two updates are left. The requests have less than `2^24` triples in all. -/
theorem C26_merge_partial (kb : KB) (g : List Triple) (E : UEnv) (S : Diff3.Sorts) (sortT : Sorter) (base : Obj) (rnd : Nat → Nat → Nat → Bool × Bool) (M : Nat → Disk → Mapping)
    (ops : List (Bool × List T3)) (X : Counted) (H : Recorded26 kb g E S sortT base rnd M ops X) (L : InLimits g E ops) (hv : volume ops < 2 ^ 24)
    (hs : SubjectsChange (· ∈ g) (requests ops)) (hb : NeverBack g (· ∈ g) (requests ops)) (M' : Mapping) (hM' : M'.Of X.disk) (rnd' : Nat → Nat → Nat → Bool × Bool) :
    (∃ D, (mergeUpdates kb E S rnd' M' X).after X.disk = some D ∧ ∀ d, kb.Reads d → Shows kb E D d (content g ops)) ∧
    (∀ N, mergeUpdates kb E S rnd' M' X = .done N → N.ups.length = 1 ∨ N.ups.length = 2) ∧
    (mergeUpdates kb E S rnd' M' X = .failed → ∀ t, content g ops t ↔ t ∈ g) := by
  obtain ⟨us, N, TA, TR, F, P, ⟨f1, f2⟩, hAg, e⟩ := H.merged L hv hs hb hM' rnd'
  have G := H.ground
  have h2 := L.fuel
  have h3 := F.vol
  have h4 := P.len
  have h5 := batch_sum TA TR
  have hold : ∀ d, kb.Reads d → Shows kb E X.disk d (content g ops) := fun d hd =>
    shows_of G.loaded G.nodup G.notEmpty G.envOk (F.ok.disk.holdsAt d) F.ok.disk.fresh (by omega) hd F.sem
  rw [e]
  by_cases h : (us.filter fun u => isAdd u == true).length ≤ 1 ∧ (us.filter fun u => isAdd u == false).length ≤ 1
  · rw [if_pos h]
    exact ⟨⟨_, rfl, hold⟩, fun N hN => by simp at hN, fun h => by simp at h⟩
  · rw [if_neg h]
    by_cases he : N.ups.isEmpty
    · rw [if_pos he]
      refine ⟨⟨_, rfl, hold⟩, fun N hN => by simp at hN, fun _ t => ?_⟩
      rw [P.ups, Bool.and_eq_true] at he
      obtain ⟨ha, hr⟩ := he
      have ha : TA = [] := by simpa using ha
      have hr : TR = [] := by simpa using hr
      subst ha hr
      exact (f2 t).symm
    · rw [if_neg he]
      refine ⟨⟨_, rfl, fun d hd => ?_⟩, fun N' hN => ?_, fun h => by simp at h⟩
      · exact shows_of G.loaded G.nodup G.notEmpty G.envOk (P.ok.holdsAt d) f1 (by omega) hd f2
      · obtain rfl : N = N' := by simpa using hN
        have := congrArg List.length P.nums
        rw [List.length_map] at this
        rw [P.ups] at he
        rw [this]
        by_cases ha : TA.isEmpty <;> by_cases hr : TR.isEmpty <;> simp [ha, hr] at he ⊢

theorem nextFree_range (k n : Nat) : nextFree k (List.range' k n) = k + n := by
  induction n generalizing k with
  | zero => rfl
  | succ n ih => rw [List.range'_succ, nextFree, if_pos rfl, ih]; omega

/-- Numbered consecutively, the updates behave as before. -/
theorem ndir_update_eq {kb : KB} {E : UEnv} {S : Diff3.Sorts} {rnd : Nat → Nat → Bool × Bool} {M : Mapping} {N : NDir} (hN : N.ups.map (·.1) = List.range N.ups.length)
    {add : Bool} {input : List T3} {D : Disk} (h : update kb E S rnd M N.disk add input = some D) :
    ∃ N', N.update kb E S rnd M add input = some N' ∧ N'.disk = D ∧ N'.ups.map (·.1) = List.range N'.ups.length := by
  unfold update at h
  unfold NDir.update
  cases hp : pending kb E S M N.disk add input with
  | none => rw [hp] at h; simp at h
  | some ts =>
    rw [hp] at h
    simp only [Option.map_some, Option.some.injEq] at h ⊢
    by_cases ht : ts.isEmpty
    · rw [if_pos ht] at h ⊢
      exact ⟨N, rfl, h, hN⟩
    · rw [if_neg ht] at h ⊢
      have hn : nextFree 0 (N.ups.map (·.1)) = N.ups.length := by
        rw [hN, List.range_eq_range', nextFree_range]; omega
      have hle : ∀ e ∈ N.ups, e.1 ≤ N.ups.length := by
        intro e he
        have := List.mem_map_of_mem (f := (·.1)) he
        rw [hN, List.mem_range] at this
        omega
      rw [hn]
      refine ⟨_, rfl, ?_, ?_⟩
      · rw [ndir_write hle]; exact h
      · show (insertNum _ _ N.ups).map (·.1) = List.range (insertNum _ _ N.ups).length
        rw [insertNum_last hle, List.map_append, hN, List.length_append, List.length_singleton, List.range_succ]
        rfl

theorem ndir_updates_eq {kb : KB} {E : UEnv} {S : Diff3.Sorts} {rnd : Nat → Nat → Nat → Bool × Bool} {M : Nat → Disk → Mapping} (ops : List (Bool × List T3)) (n : Nat) {N : NDir}
    (hN : N.ups.map (·.1) = List.range N.ups.length) {D : Disk} (h : updates kb E S rnd M n N.disk ops = some D) :
    ∃ N', NDir.updates kb E S rnd M n N ops = some N' ∧ N'.disk = D := by
  induction ops generalizing n N with
  | nil => exact ⟨N, rfl, by simpa [updates] using h⟩
  | cons u ops ih =>
    rw [updates] at h
    cases hu : update kb E S (rnd n) (M n N.disk) N.disk u.1 u.2 with
    | none => rw [hu] at h; simp at h
    | some D1 =>
      rw [hu] at h
      simp only at h
      obtain ⟨N1, a, b, c⟩ := ndir_update_eq hN hu
      rw [NDir.updates, a]
      simp only
      rw [← b] at h
      exact ih (n + 1) c h

/-- **C26 (part).** Under the same conditions, requests after merging have their effect, provided that the updates that merging leaves are numbered from 0 (they are
not, if additions were made of which nothing is left, but a deletion is: see `C26_next_number_violated`). -/
theorem C26_update_after_merge_partial (kb : KB) (g : List Triple) (E : UEnv) (S : Diff3.Sorts) (sortT : Sorter) (base : Obj) (rnd : Nat → Nat → Nat → Bool × Bool) (M : Nat → Disk → Mapping)
    (ops : List (Bool × List T3)) (X : Counted) (H : Recorded26 kb g E S sortT base rnd M ops X) (hv : volume ops < 2 ^ 24)
    (hs : SubjectsChange (· ∈ g) (requests ops)) (hb : NeverBack g (· ∈ g) (requests ops)) (M' : Mapping) (hM' : M'.Of X.disk) (rnd' : Nat → Nat → Nat → Bool × Bool)
    (N : NDir) (hN : mergeUpdates kb E S rnd' M' X = .done N) (hnum : N.ups.map (·.1) = List.range N.ups.length)
    (more : List (Bool × List T3)) (L : InLimits g E (ops ++ more)) (rnd'' : Nat → Nat → Nat → Bool × Bool) :
    ∃ N', N.updates kb E S rnd'' M 0 more = some N' ∧ ∀ d, kb.Reads d → Shows kb E N'.disk d (content g (ops ++ more)) := by
  have l1 := L.volume
  have l2 := L.fuel
  rw [volume_append] at l1 l2
  have L0 : InLimits g E ops := ⟨L.fit.left, by omega, by omega⟩
  have Lm : OpsFit more := ⟨fun u hu => L.fit.ids u (List.mem_append.2 (.inr hu)), fun u hu => L.fit.len u (List.mem_append.2 (.inr hu))⟩
  obtain ⟨us, N1, TA, TR, F, P, ⟨f1, f2⟩, hAg, e⟩ := H.merged L0 hv hs hb hM' rnd'
  have G := H.ground
  have h3 := F.vol
  have h4 := P.len
  have h5 := batch_sum TA TR
  rw [e] at hN
  have : N1 = N := by
    by_cases h : (us.filter fun u => isAdd u == true).length ≤ 1 ∧ (us.filter fun u => isAdd u == false).length ≤ 1
    · rw [if_pos h] at hN; simp at hN
    · rw [if_neg h] at hN
      by_cases he : N1.ups.isEmpty
      · rw [if_pos he] at hN; simp at hN
      · rw [if_neg he] at hN; simpa using hN
  subst this
  have hD : DiskOk g N1.disk (batch true TA ++ batch false TR) := ⟨P.ok.len, P.ok.ups, f1, P.ok.size⟩
  obtain ⟨D, us', a, b, c, d⟩ := updates_spec G.loaded G.envOk G.sortsOk rnd'' G.notEmpty G.reads H.mapped more 0 hD Lm (by omega) (by omega)
  obtain ⟨N', a1, a2⟩ := ndir_updates_eq more 0 hnum a
  refine ⟨N', a1, fun o ho => ?_⟩
  rw [a2]
  refine shows_of G.loaded G.nodup G.notEmpty G.envOk (b.holdsAt o) b.fresh (by omega) ho fun t => (d t).trans ?_
  unfold content
  rw [List.map_append, holdsAfter_append]
  exact holdsAfter_congr f2 _ _

/-! ## C26 is false without the conditions -/

theorem updatesC_cons {kb : KB} {E : UEnv} {S : Diff3.Sorts} {sortT : Sorter} {base : Obj} {rnd : Nat → Nat → Nat → Bool × Bool} {M : Nat → Disk → Mapping} {n : Nat} {X X' X'' : Counted}
    {u : Bool × List T3} {ops : List (Bool × List T3)} (h : updateC kb E S sortT base (rnd n) (M n X.disk) X u.1 u.2 = some X')
    (h' : updatesC kb E S sortT base rnd M (n + 1) X' ops = some X'') : updatesC kb E S sortT base rnd M n X (u :: ops) = some X'' := by
  rw [updatesC, h]; exact h'

/-- The ids are in the range of the layout. -/
def Fits (t : T3) : Prop := t.1 < 2 ^ 32 - 1 ∧ t.2.1 < 2 ^ 32 - 1 ∧ t.2.2 < 2 ^ 32 - 1

/-- One more request for one triple. -/
theorem Ground.step {kb g E S sortT base} (G : Ground kb g E S sortT base) (rnd : Nat → Nat → Bool × Bool) {X : Counted} {us : List Update} (hX : CountedOk sortT E.fuel base g X us)
    {M : Mapping} (hM : M.Of X.disk) (add : Bool) {a : T3} (ha : Fits a) (hf : g.length + (us.map (·.triples.length)).sum < E.fuel) (hvol : (us.map (·.triples.length)).sum < 1000)
    (hc : if add then a.triple ∉ applyAll g us else a.triple ∈ applyAll g us) :
    ∃ X' n, updateC kb E S sortT base rnd M X add [a] = some X' ∧ CountedOk sortT E.fuel base g X' (us ++ [request add [a]]) ∧ X'.ns = X.ns ++ [n] ∧
      n = Stats.newKeys E.fuel add (getTermList sortT E.fuel 0 base (List.zipWith Stored.terms X.disk.ups X.ns)) (Upd.subjects S [a]) ∧
      (ChangesKeys .spo g us → (0 < n ↔ ∃ k, ¬ (k ∈ (applyAll g us).map Order.spo.key ↔ k ∈ (applyAll g (us ++ [request add [a]])).map Order.spo.key))) := by
  obtain ⟨X', h1, h2, h3⟩ := updateC_one G.loaded G.envOk G.sortsOk sortT base rnd G.notEmpty G.reads hX hM add a ha hf (by omega) hc
  obtain ⟨hid, l, hb, hl⟩ := G.subjects
  refine ⟨X', _, h1, h2, h3, rfl, fun hch => ?_⟩
  have hfr : (request add [a]).Fresh (applyAll g us) := by
    cases add with
    | true => exact ⟨by simp, by simpa using hc⟩
    | false => exact ⟨by simp, by simpa using hc⟩
  rw [applyAll_append]
  exact hX.count G.sortT G.nodup hid hb hl hch hf G.sortsOk (by simpa using ha.1) hfr

theorem applyAll_nil (g : List Triple) : applyAll g [] = g := rfl

/-- C26 is false: an addition to a subject that exists is lost by merging, in every graph. -/
theorem C26_addition_lost_violated (kb : KB) (g : List Triple) (E : UEnv) (S : Diff3.Sorts) (sortT : Sorter) (base : Obj) (G : Ground kb g E S sortT base)
    (rnd rnd' : Nat → Nat → Nat → Bool × Bool) (M : Nat → Disk → Mapping) (hM : ∀ n D, (M n D).Of D) (a b : T3) (ha : Fits a) (hb : Fits b) (hag : a.triple ∉ g)
    (hold : ∃ t ∈ g, t.s = a.triple.s) (hnew : ∀ t ∈ g, t.s ≠ b.triple.s) (hab : a ≠ b) (hf : g.length + 2 < E.fuel) :
    ∃ X N, Recorded26 kb g E S sortT base rnd M [(true, [b]), (true, [a])] X ∧ mergeUpdates kb E S rnd' (M 2 X.disk) X = .done N ∧
      content g [(true, [b]), (true, [a])] a.triple ∧
      ∀ d, kb.Reads d → Shows kb E N.disk d fun t => content g [(true, [b]), (true, [a])] t ∧ t ≠ a.triple := by
  have hbg : b.triple ∉ g := fun h => hnew _ h rfl
  have hab' : a.triple ≠ b.triple := fun h => hab (triple_inj h)
  obtain ⟨X1, n1, s1, c1, w1, -, p1⟩ := G.step (rnd 0) (CountedOk.empty sortT E.fuel base g) (hM 0 _) true hb (by simp; omega) (by simp) (by rw [if_pos rfl]; exact hbg)
  obtain ⟨X2, n2, s2, c2, w2, -, p2⟩ := G.step (rnd 1) c1 (hM 1 _) true ha (by simp [request_triples]; omega) (by simp [request_triples])
    (by simpa [request, applyAll, Update.apply, hab'] using hag)
  have hn1 : 0 < n1 := (p1 trivial).2 ⟨b.triple.s, fun h => by
    have := h.2 (List.mem_map.2 ⟨b.triple, by simp [applyAll, request, Update.apply], rfl⟩)
    obtain ⟨t, ht, e⟩ := List.mem_map.1 this
    exact hnew t ht e⟩
  have hch : ChangesKeys .spo g ([] ++ [request true [b]]) := changesKeys_snoc' (us := []) trivial (.inr (by
    have := (p1 trivial).1 hn1
    rwa [applyAll_append] at this))
  have hn2 : n2 = 0 := by
    refine Nat.eq_zero_of_not_pos fun hp => ?_
    obtain ⟨k, hk⟩ := (p2 hch).1 hp
    refine hk ⟨fun h => ?_, fun h => ?_⟩
    · rw [applyAll_append]
      obtain ⟨t, ht, e⟩ := List.mem_map.1 h
      exact List.mem_map.2 ⟨t, List.mem_append.2 (.inl ht), e⟩
    · rw [applyAll_append] at h
      obtain ⟨t, ht, e⟩ := List.mem_map.1 h
      rcases List.mem_append.1 ht with ht | ht
      · exact List.mem_map.2 ⟨t, ht, e⟩
      · have ht : t = a.triple := by simpa using ht
        obtain ⟨t', ht', e'⟩ := hold
        refine List.mem_map.2 ⟨t', ?_, ?_⟩
        · simp [applyAll, request, Update.apply, ht']
        · rw [← e, ht]; exact e'
  have hns : X2.ns = [n1, 0] := by rw [w2, w1, hn2]; rfl
  have hse : seen ([] ++ [request true [b]] ++ [request true [a]]) X2.ns = [request true [b]] := by
    rw [hns]; simp [seen, hn1]
  have hnf : ∀ x, NewFor x [] [request true [b]] := fun x => ⟨by simp [request_triples], fun _ t _ => by simp, trivial⟩
  obtain ⟨N, TA, TR, P, e⟩ := mergeUpdates_spec G.loaded G.envOk G.notEmpty G.reads G.sortsOk rnd' c2 (hM 2 _) (by rw [hse]; exact hnf)
    (by simp [request_triples]; omega) (by simp [request_triples]) (by
      rw [hse]; intro u hu
      refine ⟨_, List.mem_singleton.2 rfl, ?_⟩
      simp at hu
      rcases hu with rfl | rfl <;> rfl)
  rw [hse] at P
  have hlt : left true [request true [b]] = [b.triple] := by simp [left, sumOf, sumStep, request, isAdd, Update.triples]
  have hlf : left false [request true [b]] = [] := by simp [left, sumOf, sumStep, request, isAdd, Update.triples]
  obtain ⟨f1, f2⟩ := P.shows (by rw [hlt]; intro t ht; rw [List.mem_singleton.1 ht]; exact hbg)
  have hTA : TA.isEmpty = false := by
    cases TA with
    | nil => exact absurd ((P.memA b.triple).2 (by rw [hlt]; simp)) (by simp)
    | cons => rfl
  have h4 := P.len
  have h5 := batch_sum TA TR
  refine ⟨X2, N, ⟨G, hM, updatesC_cons s1 (updatesC_cons s2 rfl)⟩, ?_, ?_, fun d hd => ?_⟩
  · rw [e, if_neg (by simp [request, isAdd]), if_neg (by rw [P.ups, hTA]; simp)]
  · show _ ∨ _
    exact .inr (by simp)
  · refine shows_of G.loaded G.nodup G.notEmpty G.envOk (P.ok.holdsAt d) f1 (by simp [request_triples] at h4; omega) hd fun t => ?_
    rw [f2, hlt, hlf]
    show _ ↔ (((t ∈ g ∨ t ∈ [b].map T3.triple) ∨ t ∈ [a].map T3.triple) ∧ t ≠ a.triple)
    simp only [List.mem_singleton, List.map_cons, List.map_nil, List.not_mem_nil, false_and, not_false_eq_true, and_true]
    constructor
    · rintro (h | rfl)
      · exact ⟨.inl (.inl h), fun e => hag (e ▸ h)⟩
      · exact ⟨.inl (.inr rfl), fun e => hab' e.symm⟩
    · rintro ⟨(h | h) | h, h'⟩
      · exact .inl h
      · exact .inr h
      · exact absurd h h'

/-- If no addition is seen, the NULL iterator is used. -/
theorem mergeUpdates_undef {kb : KB} {g : List Triple} {E : UEnv} {S : Diff3.Sorts} (rnd : Nat → Nat → Nat → Bool × Bool) {sortT : Sorter} {fuel : Nat} {base : Obj} {X : Counted} {us : List Update}
    (hX : CountedOk sortT fuel base g X us) {M : Mapping} (hM : M.Of X.disk) (h2 : 2 ≤ (us.filter fun u => isAdd u == true).length) (h : ∀ v ∈ seen us X.ns, isAdd v ≠ true) :
    mergeUpdates kb E S rnd M X = .undef := by
  obtain ⟨o1, o2⟩ := hX.disk.opened hM
  generalize hL : us.zip ((X.disk.opened M).zip X.ns) = L
  have hz : ((X.disk.opened M).zip X.ns).length = us.length := by rw [List.length_zip, o1, hX.len]; omega
  have l1 : L.map (·.1) = us := by rw [← hL, List.map_fst_zip (by omega)]
  have l2 : L.map (·.2) = (X.disk.opened M).zip X.ns := by rw [← hL, List.map_snd_zip (by omega)]
  have hc : counted L = seen us X.ns := by rw [← hL]; exact counted_zip us _ _ o1
  have hO : OpenedAs L := by
    intro x hx
    rw [← hL] at hx
    obtain ⟨i, hi, rfl⟩ := List.getElem_of_mem hx
    have hi1 : i < us.length := by rw [List.length_zip] at hi; omega
    rw [List.getElem_zip, List.getElem_zip]
    have := o2 i hi1 (by omega)
    exact ⟨this.1, this.2.at _⟩
  have e1 : ((L.map (·.2)).filter fun d => d.1.add).length = (us.filter fun u => isAdd u == true).length := by
    rw [← l1, ← opened_filter hO true]; simp
  unfold mergeUpdates
  simp only
  rw [← l2, e1, if_neg (by omega)]
  unfold newDiff
  simp only [e1]
  rw [if_pos (by omega), summary_none E true hO (by rw [hc]; exact h)]
  rfl

/-- C26 is false: after two additions to subjects that exist, merging uses a NULL iterator, in every graph. -/
theorem C26_undefined_violated (kb : KB) (g : List Triple) (E : UEnv) (S : Diff3.Sorts) (sortT : Sorter) (base : Obj) (G : Ground kb g E S sortT base)
    (rnd rnd' : Nat → Nat → Nat → Bool × Bool) (M : Nat → Disk → Mapping) (hM : ∀ n D, (M n D).Of D) (a b : T3) (ha : Fits a) (hb : Fits b) (hag : a.triple ∉ g) (hbg : b.triple ∉ g)
    (holda : ∃ t ∈ g, t.s = a.triple.s) (holdb : ∃ t ∈ g, t.s = b.triple.s) (hab : a ≠ b) (hf : g.length + 2 < E.fuel) :
    ∃ X, Recorded26 kb g E S sortT base rnd M [(true, [b]), (true, [a])] X ∧ mergeUpdates kb E S rnd' (M 2 X.disk) X = .undef := by
  have hab' : a.triple ≠ b.triple := fun h => hab (triple_inj h)
  obtain ⟨X1, n1, s1, c1, w1, -, p1⟩ := G.step (rnd 0) (CountedOk.empty sortT E.fuel base g) (hM 0 _) true hb (by simp; omega) (by simp) (by rw [if_pos rfl]; exact hbg)
  have hc2 : a.triple ∉ applyAll g ([] ++ [request true [b]]) := by simpa [request, applyAll, Update.apply, hab'] using hag
  obtain ⟨X2, n2, s2, c2, w2, v2, -⟩ := G.step (rnd 1) c1 (hM 1 _) true ha (by simp [request_triples]; omega) (by simp [request_triples]) hc2
  have key : ∀ c : T3, (∃ t ∈ g, t.s = c.triple.s) → ¬ ∃ k, ¬ (k ∈ g.map Order.spo.key ↔ k ∈ ((request true [c]).apply g).map Order.spo.key) := by
    rintro c ⟨t', ht', e'⟩ ⟨k, hk⟩
    refine hk ⟨fun h => ?_, fun h => ?_⟩
    · obtain ⟨t, ht, e⟩ := List.mem_map.1 h
      exact List.mem_map.2 ⟨t, List.mem_append.2 (.inl ht), e⟩
    · obtain ⟨t, ht, e⟩ := List.mem_map.1 h
      rcases List.mem_append.1 ht with ht | ht
      · exact List.mem_map.2 ⟨t, ht, e⟩
      · have ht : t = c.triple := by simpa using ht
        exact List.mem_map.2 ⟨t', ht', by rw [← e, ht]; exact e'⟩
  have hn1 : n1 = 0 := by
    refine Nat.eq_zero_of_not_pos fun hp => key b holdb ?_
    have := (p1 trivial).1 hp
    rwa [applyAll_append] at this
  have w1 : X1.ns = [0] := by rw [w1, hn1]; rfl
  have hn2 : n2 = 0 := by
    refine Nat.eq_zero_of_not_pos fun hp => key a holda ?_
    obtain ⟨hid, l, hbl, hl⟩ := G.subjects
    have hskip : getTermList sortT E.fuel 0 base (List.zipWith Stored.terms X1.disk.ups X1.ns) = getTermList sortT E.fuel 0 base (List.zipWith Stored.terms Counted.empty.disk.ups Counted.empty.ns) := by
      rw [w1]
      have : X1.disk.ups.length = 1 := by rw [c1.disk.len]; rfl
      match hu : X1.disk.ups, this with
      | [u], _ =>
        show (termListStep sortT E.fuel 0 (.plain base) (u.terms 0)).obj sortT = _
        unfold termListStep
        rw [if_neg (by simp [Stored.terms])]
        rfl
    rw [v2, hskip] at hp
    have := ((CountedOk.empty sortT E.fuel base g).count G.sortT G.nodup hid hbl hl trivial (by simp; omega) G.sortsOk (ts := [a]) (add := true) (by simpa using ha.1)
      ⟨by simp, by simpa [applyAll] using hag⟩).1 hp
    exact this
  have hns : X2.ns = [0, 0] := by rw [w2, w1, hn2]; rfl
  exact ⟨X2, ⟨G, hM, updatesC_cons s1 (updatesC_cons s2 rfl)⟩, mergeUpdates_undef rnd' c2 (hM 2 _) (by simp [request, isAdd]) (by rw [hns]; simp [seen])⟩

/-- A request for a triple that is alone with its subject changes the subjects. -/
theorem alone_changes {add : Bool} {a : T3} {h : List Triple} (halone : ∀ t ∈ h, t.s = a.triple.s → t = a.triple) (hc : if add then a.triple ∉ h else a.triple ∈ h) :
    ∃ k, ¬ (k ∈ h.map Order.spo.key ↔ k ∈ ((request add [a]).apply h).map Order.spo.key) := by
  refine ⟨a.triple.s, fun e => ?_⟩
  cases add with
  | true =>
    obtain ⟨t, ht, e⟩ := List.mem_map.1 (e.2 (List.mem_map.2 ⟨a.triple, by simp [request, Update.apply], rfl⟩))
    have := halone t ht e
    subst this
    simp at hc; exact hc ht
  | false =>
    have hc : a.triple ∈ h := by simpa using hc
    obtain ⟨t, ht, e⟩ := List.mem_map.1 (e.1 (List.mem_map.2 ⟨a.triple, hc, rfl⟩))
    simp only [request, Bool.false_eq_true, if_false, Update.apply, List.mem_filter, List.map_cons, List.map_nil, List.mem_singleton, decide_eq_true_eq] at ht
    exact ht.2 (halone t ht.1 e)

/-- One more request for one triple that is alone with its subject. -/
theorem Ground.step_alone {kb g E S sortT base} (G : Ground kb g E S sortT base) (rnd : Nat → Nat → Bool × Bool) {X : Counted} {us : List Update} (hX : CountedOk sortT E.fuel base g X us)
    (hch : ChangesKeys .spo g us) {M : Mapping} (hM : M.Of X.disk) (add : Bool) {a : T3} (ha : Fits a) (hf : g.length + (us.map (·.triples.length)).sum < E.fuel)
    (hvol : (us.map (·.triples.length)).sum < 1000) (halone : ∀ t ∈ applyAll g us, t.s = a.triple.s → t = a.triple)
    (hc : if add then a.triple ∉ applyAll g us else a.triple ∈ applyAll g us) :
    ∃ X', updateC kb E S sortT base rnd M X add [a] = some X' ∧ CountedOk sortT E.fuel base g X' (us ++ [request add [a]]) ∧ ChangesKeys .spo g (us ++ [request add [a]]) := by
  obtain ⟨X', n, h1, h2, -⟩ := G.step rnd hX hM add ha hf hvol hc
  exact ⟨X', h1, h2, changesKeys_snoc' hch (.inr (alone_changes halone hc))⟩

theorem map_singleton {TA : List T3} {a : T3} (hn : (TA.map T3.triple).Nodup) (h : ∀ t, t ∈ TA.map T3.triple ↔ t = a.triple) : TA = [a] := by
  match TA with
  | [] => exact absurd ((h a.triple).2 rfl) (by simp)
  | [x] => rw [triple_inj ((h x.triple).1 (by simp))]
  | x :: y :: l =>
    have h1 := (h x.triple).1 (by simp)
    have h2 := (h y.triple).1 (by simp)
    rw [List.map_cons, List.map_cons, List.nodup_cons] at hn
    exact absurd (by rw [h1, h2]; simp) hn.1

/-- C26 is false: a stored triple that is deleted and added back is returned twice after merging.  `x` and `y` are stored and alone with their subjects. -/
theorem C26_added_back_violated (kb : KB) (g : List Triple) (E : UEnv) (S : Diff3.Sorts) (sortT : Sorter) (base : Obj) (G : Ground kb g E S sortT base)
    (rnd rnd' : Nat → Nat → Nat → Bool × Bool) (M : Nat → Disk → Mapping) (hM : ∀ n D, (M n D).Of D) (x y : T3) (hx : Fits x) (hy : Fits y) (hxg : x.triple ∈ g) (hyg : y.triple ∈ g)
    (halx : ∀ t ∈ g, t.s = x.triple.s → t = x.triple) (haly : ∀ t ∈ g, t.s = y.triple.s → t = y.triple) (hxy : x ≠ y) (hf : g.length + 3 < E.fuel) :
    ∃ X N, Recorded26 kb g E S sortT base rnd M [(false, [x]), (true, [x]), (false, [y])] X ∧ mergeUpdates kb E S rnd' (M 3 X.disk) X = .done N ∧
      (∀ d, kb.Reads d → Shows kb E X.disk d (content g [(false, [x]), (true, [x]), (false, [y])])) ∧
      ∀ d, kb.Reads d → ∀ M' : Mapping, M'.Of N.disk → ∃ out, (kb.getIteratorU E (N.disk.opened M') d.idx (-1) (-1) (-1)).Returns out ∧ out.count (d.row x.triple) = 2 := by
  have hxy' : x.triple ≠ y.triple := fun h => hxy (triple_inj h)
  obtain ⟨X1, s1, c1, k1⟩ := G.step_alone (rnd 0) (CountedOk.empty sortT E.fuel base g) trivial (hM 0 _) false hx (by simp; omega) (by simp) halx hxg
  have m1 : ∀ t, t ∈ applyAll g ([] ++ [request false [x]]) ↔ t ∈ g ∧ t ≠ x.triple := by intro t; simp [applyAll, request, Update.apply]
  obtain ⟨X2, s2, c2, k2⟩ := G.step_alone (rnd 1) c1 k1 (hM 1 _) true hx (by simp [request_triples]; omega) (by simp [request_triples])
    (fun t ht e => halx t ((m1 t).1 ht).1 e) (by rw [if_pos rfl, m1]; exact fun h => h.2 rfl)
  have m2 : ∀ t, t ∈ applyAll g ([] ++ [request false [x]] ++ [request true [x]]) ↔ t ∈ g := by
    intro t
    simp only [applyAll, request, Update.apply, List.nil_append, List.cons_append, List.foldl_cons, List.foldl_nil, Bool.false_eq_true, if_false, if_true, List.map_cons, List.map_nil,
      List.mem_append, List.mem_filter, List.mem_singleton, decide_eq_true_eq]
    by_cases h : t = x.triple
    · simp [h, hxg]
    · simp [h]
  obtain ⟨X3, s3, c3, k3⟩ := G.step_alone (rnd 2) c2 k2 (hM 2 _) false hy (by simp [request_triples]; omega) (by simp [request_triples])
    (fun t ht e => haly t ((m2 t).1 ht) e) ((m2 _).2 hyg)
  have H : Recorded26 kb g E S sortT base rnd M [(false, [x]), (true, [x]), (false, [y])] X3 := ⟨G, hM, updatesC_cons s1 (updatesC_cons s2 (updatesC_cons s3 rfl))⟩
  obtain ⟨hid, l, hbl, hl⟩ := G.subjects
  have hse : seen ([] ++ [request false [x]] ++ [request true [x]] ++ [request false [y]]) X3.ns = [request false [x], request true [x], request false [y]] :=
    seen_all c3.len (c3.pos G.sortT G.nodup hid hbl hl k3 (by simp [request_triples]; omega))
  obtain ⟨f1, f2, -⟩ := net_fold (g := g) (A := []) (R := []) c3.disk.fresh (by simp) (by simp) (by simp)
  obtain ⟨N, TA, TR, P, e⟩ := mergeUpdates_spec G.loaded G.envOk G.notEmpty G.reads G.sortsOk rnd' c3 (hM 3 _) (by
    rw [hse]; intro a; cases a
    · exact f2
    · exact f1) (by simp [request_triples]; omega) (by simp [request_triples]) (by rw [hse]; exact fun u hu => ⟨u, hu, rfl⟩)
  rw [hse] at P
  have hlt : left true [request false [x], request true [x], request false [y]] = [x.triple] := by
    simp [left, sumOf, sumStep, request, isAdd, Update.triples, hxy']
  have hlf : left false [request false [x], request true [x], request false [y]] = [y.triple] := by
    simp [left, sumOf, sumStep, request, isAdd, Update.triples, hxy', Ne.symm hxy']
  have hTA : TA = [x] := map_singleton P.ndA fun t => by rw [P.memA, hlt, List.mem_singleton]
  have hTR : TR = [y] := map_singleton P.ndR fun t => by
    rw [P.memR, hlf, List.mem_singleton]
    exact ⟨fun h => h.1, fun h => ⟨h, h ▸ hyg⟩⟩
  subst hTA hTR
  refine ⟨X3, N, H, ?_, fun d hd => ?_, fun d hd M' hM' => ?_⟩
  · rw [e, if_neg (by simp [request, isAdd]), if_neg (by rw [P.ups]; simp)]
  · refine shows_of G.loaded G.nodup G.notEmpty G.envOk (c3.disk.holdsAt d) c3.disk.fresh (by simp [request_triples]; omega) hd fun t => ?_
    rw [applyAll_append]
    show t ∈ List.filter _ _ ↔ (((t ∈ g ∧ t ∉ [x].map T3.triple) ∨ t ∈ [x].map T3.triple) ∧ t ∉ [y].map T3.triple)
    rw [List.mem_filter, m2, decide_eq_true_eq]
    refine and_congr_left fun _ => ?_
    simp only [List.map_cons, List.map_nil, List.mem_singleton]
    by_cases h : t = x.triple
    · simp [h, hxg]
    · simp [h]
  · have hdel : DelOk (fun t => decide ((⟨none, none, none⟩ : Pattern).Matches t)) g (batch true [x] ++ batch false [y]) := by
      refine ⟨fun h => by simp [request, isAdd] at h, fun _ _ => ?_, trivial⟩
      exact List.ne_nil_of_mem (List.mem_filter.2 ⟨List.mem_append.2 (.inl hxg), decide_eq_true (by intro z v hv; cases z <;> simp [Pattern.at] at hv)⟩)
    obtain ⟨out, o1, -, o3⟩ := (P.ok.holdsAt d).query G.loaded G.nodup G.envOk hM' (by simp [batch, request_triples]; omega) ⟨none, none, none⟩
      (by intro z v hv; cases z <;> simp [Pattern.at] at hv) hd (by cases d <;> simp [Pattern.at, Order.positions]) (by cases d <;> simp [Pattern.at, Order.positions]) (.inl G.notEmpty) |>.1 hdel
    refine ⟨out, o1, ?_⟩
    rw [o3.count_eq, List.filter_eq_self.2 (fun t _ => decide_eq_true (by intro z v hv; cases z <;> simp [Pattern.at] at hv))]
    have hcount : ∀ l : List Triple, (l.map d.row).count (d.row x.triple) = l.count x.triple := by
      intro l
      induction l with
      | nil => rfl
      | cons t l ih =>
        rw [List.map_cons, List.count_cons, List.count_cons, ih]
        by_cases h : t = x.triple
        · subst h; simp
        · have : d.row t ≠ d.row x.triple := fun e => h (Order.eq_of_row d (congrArg (fun r : Row3 => r.1) e) (congrArg (fun r : Row3 => r.2) e))
          simp [h, this]
    rw [hcount]
    have e2 : applyAll g (batch true [x] ++ batch false [y]) = (g ++ [x.triple]).filter fun t => decide (t ∉ [y.triple]) := rfl
    rw [e2, List.count_filter (by simpa using hxy'), List.count_append, G.nodup.count, if_pos hxg]
    simp

theorem small_of_swap {S : Diff3.Sorts} {D : Disk} {u v : Stored} (hD : D.ups = [u, v]) (hu : u.small = true) (hv : v.small = true) {M : Mapping}
    (hM : M.Of ⟨D.glob, [v, u]⟩) : M.Of D := by
  refine ⟨hM.1, fun i w hw hs => ?_⟩
  have hw := List.mem_of_getElem? hw
  rw [hD] at hw
  simp at hw
  rcases hw with rfl | rfl
  · rw [hu] at hs; cases hs
  · rw [hv] at hs; cases hs

/-- C26 is false of the requests after merging: if additions were made of which nothing is left, the deletion that is left is number 1, the next update becomes
number 0 and is applied before it.  `x` is stored and alone with its subject, `b` has a new subject. -/
theorem C26_next_number_violated (kb : KB) (g : List Triple) (E : UEnv) (S : Diff3.Sorts) (sortT : Sorter) (base : Obj) (G : Ground kb g E S sortT base)
    (rnd rnd' : Nat → Nat → Nat → Bool × Bool) (rnd'' : Nat → Nat → Bool × Bool) (M : Nat → Disk → Mapping) (hM : ∀ n D, (M n D).Of D) (x b : T3) (hx : Fits x) (hb : Fits b)
    (hxg : x.triple ∈ g) (halx : ∀ t ∈ g, t.s = x.triple.s → t = x.triple) (hnew : ∀ t ∈ g, t.s ≠ b.triple.s) (hf : g.length + 4 < E.fuel) :
    ∃ X N N', Recorded26 kb g E S sortT base rnd M [(true, [b]), (false, [b]), (false, [x])] X ∧ mergeUpdates kb E S rnd' (M 3 X.disk) X = .done N ∧
      (∀ d, kb.Reads d → Shows kb E N.disk d (content g [(true, [b]), (false, [b]), (false, [x])])) ∧ N.update kb E S rnd'' (M 4 N.disk) true [x] = some N' ∧
      ∀ d, kb.Reads d → Shows kb E N'.disk d fun t => content g [(true, [b]), (false, [b]), (false, [x])] t ∧ t ≠ x.triple := by
  have hbg : b.triple ∉ g := fun h => hnew _ h rfl
  have hxb : x.triple ≠ b.triple := fun h => hbg (h ▸ hxg)
  obtain ⟨X1, s1, c1, k1⟩ := G.step_alone (rnd 0) (CountedOk.empty sortT E.fuel base g) trivial (hM 0 _) true hb (by simp; omega) (by simp) (fun t ht e => absurd e (hnew t ht))
    (by rw [if_pos rfl]; exact hbg)
  have m1 : ∀ t, t ∈ applyAll g ([] ++ [request true [b]]) ↔ t ∈ g ∨ t = b.triple := by intro t; simp [applyAll, request, Update.apply]
  obtain ⟨X2, s2, c2, k2⟩ := G.step_alone (rnd 1) c1 k1 (hM 1 _) false hb (by simp [request_triples]; omega) (by simp [request_triples])
    (fun t ht e => ((m1 t).1 ht).elim (fun h => absurd e (hnew t h)) id) ((m1 _).2 (.inr rfl))
  have m2 : ∀ t, t ∈ applyAll g ([] ++ [request true [b]] ++ [request false [b]]) ↔ t ∈ g := by
    intro t
    rw [applyAll_append]
    show t ∈ List.filter _ _ ↔ _
    rw [List.mem_filter, m1, decide_eq_true_eq]
    simp only [List.map_cons, List.map_nil, List.mem_singleton]
    constructor
    · rintro ⟨h | h, h'⟩
      · exact h
      · exact absurd h h'
    · exact fun h => ⟨.inl h, fun e => hbg (e ▸ h)⟩
  obtain ⟨X3, s3, c3, k3⟩ := G.step_alone (rnd 2) c2 k2 (hM 2 _) false hx (by simp [request_triples]; omega) (by simp [request_triples])
    (fun t ht e => halx t ((m2 t).1 ht) e) ((m2 _).2 hxg)
  have H : Recorded26 kb g E S sortT base rnd M [(true, [b]), (false, [b]), (false, [x])] X3 := ⟨G, hM, updatesC_cons s1 (updatesC_cons s2 (updatesC_cons s3 rfl))⟩
  obtain ⟨hid, l, hbl, hl⟩ := G.subjects
  have hse : seen ([] ++ [request true [b]] ++ [request false [b]] ++ [request false [x]]) X3.ns = [request true [b], request false [b], request false [x]] :=
    seen_all c3.len (c3.pos G.sortT G.nodup hid hbl hl k3 (by simp [request_triples]; omega))
  obtain ⟨f1, f2, -⟩ := net_fold (g := g) (A := []) (R := []) c3.disk.fresh (by simp) (by simp) (by simp)
  obtain ⟨N, TA, TR, P, e⟩ := mergeUpdates_spec G.loaded G.envOk G.notEmpty G.reads G.sortsOk rnd' c3 (hM 3 _) (by
    rw [hse]; intro a; cases a
    · exact f2
    · exact f1) (by simp [request_triples]; omega) (by simp [request_triples]) (by rw [hse]; exact fun u hu => ⟨u, hu, rfl⟩)
  rw [hse] at P
  have hlt : left true [request true [b], request false [b], request false [x]] = [] := by
    simp [left, sumOf, sumStep, request, isAdd, Update.triples]
  have hlf : left false [request true [b], request false [b], request false [x]] = [b.triple, x.triple] := by
    simp [left, sumOf, sumStep, request, isAdd, Update.triples]
  have hTA : TA = [] := by
    cases TA with
    | nil => rfl
    | cons z _ => exact absurd ((P.memA z.triple).1 (by simp)) (by rw [hlt]; simp)
  have hTR : TR = [x] := map_singleton P.ndR fun t => by
    rw [P.memR, hlf]
    simp only [List.mem_cons, List.not_mem_nil, or_false]
    exact ⟨fun ⟨h, h'⟩ => h.resolve_left (fun e => hbg (e ▸ h')), fun h => ⟨.inr h, h ▸ hxg⟩⟩
  subst hTA hTR
  obtain ⟨f3, f4⟩ := P.shows (by rw [hlt]; simp)
  have hcon : ∀ t, content g [(true, [b]), (false, [b]), (false, [x])] t ↔ t ∈ g ∧ t ≠ x.triple := by
    intro t
    show ((t ∈ g ∨ t ∈ [b].map T3.triple) ∧ t ∉ [b].map T3.triple) ∧ t ∉ [x].map T3.triple ↔ _
    simp only [List.map_cons, List.map_nil, List.mem_singleton]
    constructor
    · rintro ⟨⟨h | h, h'⟩, h''⟩
      · exact ⟨h, h''⟩
      · exact absurd h h'
    · rintro ⟨h, h'⟩
      exact ⟨⟨.inl h, fun e => hbg (e ▸ h)⟩, h'⟩
  have hD : DiskOk g N.disk [request false [x]] := ⟨P.ok.len, P.ok.ups, f3, P.ok.size⟩
  have hnotin : x.triple ∉ applyAll g [request false [x]] := by simp [applyAll, request, Update.apply]
  obtain ⟨ts, p1, p2, p3, p4⟩ := pending_spec G.loaded G.envOk G.sortsOk hD (hM 4 _) (by simp [request_triples]; omega) G.notEmpty G.reads true [x]
  have hts : ts = [x] := by
    have h1 : x ∈ ts := (p4 x).2 ⟨by simp, by rw [if_pos rfl]; exact hnotin⟩
    match ts, h1, p3 with
    | [z], h1, _ => rw [List.mem_singleton.1 h1]
    | _ :: _ :: _, _, hl => simp at hl
  subst hts
  have hnums : N.ups.map (·.1) = [1] := P.nums
  have hdisk : N.disk = Disk.empty.write S (rnd' 1) false [x] := P.disk
  have hW := hD.write G.sortsOk rnd'' true [x] (by simpa using (show _ ∧ _ ∧ _ from hx)) (by simp) (by simp [request_triples]) ⟨by simp, by simpa using hnotin⟩
  obtain ⟨u, hu⟩ : ∃ u, N.ups = [(1, u)] := by
    match hN : N.ups, hnums with
    | [(k, u)], h => simp at h; exact ⟨u, by rw [h]⟩
  have husm : u.small = true := by
    have h1 : N.disk.ups = [u] := by simp [NDir.disk, hu]
    rw [hdisk] at h1
    simp only [Disk.write, Disk.empty, List.nil_append, List.cons.injEq, and_true] at h1
    rw [← h1]; rfl
  refine ⟨X3, N, N.write S rnd'' 0 true [x], H, ?_, fun d hd => ?_, ?_, fun d hd => ?_⟩
  · rw [e, if_neg (by simp [request, isAdd]), if_neg (by rw [P.ups]; simp)]
  · refine shows_of G.loaded G.nodup G.notEmpty G.envOk (P.ok.holdsAt d) f3 (by simp [batch, request_triples]; omega) hd fun t => ?_
    rw [f4, hlt, hlf, hcon]
    simp only [List.mem_cons, List.not_mem_nil, or_false]
    constructor
    · rintro ⟨h, h'⟩
      exact ⟨h, fun e => h' ⟨.inr e, h⟩⟩
    · rintro ⟨h, h'⟩
      exact ⟨h, fun ⟨e, _⟩ => e.elim (fun e => hbg (e ▸ h)) h'⟩
  · unfold NDir.update
    rw [p1, hnums]
    rfl
  · have hups : (N.disk.write S rnd'' true [x]).ups = [u, ⟨true, true, Diff3.build S rnd'' N.disk.glob [x]⟩] := by
      simp only [Disk.write, NDir.disk, hu]; rfl
    have hdn : (N.write S rnd'' 0 true [x]).disk = ⟨(N.disk.write S rnd'' true [x]).glob, [⟨true, true, Diff3.build S rnd'' N.disk.glob [x]⟩, u]⟩ := by
      simp only [NDir.write, NDir.disk, hu, insertNum]; rfl
    have hhold : HoldsAt (N.write S rnd'' 0 true [x]).disk d [request true [x], request false [x]] := by
      have hA := hW.holdsAt d
      rw [hdn]
      refine ⟨rfl, fun i hi hi' => ?_⟩
      match i, hi with
      | 0, _ =>
        have := hA.ups 1 (by simp) (by rw [hups]; simp)
        simp only [hups] at this
        refine ⟨this.1, this.2.1, fun M' hM' => ?_⟩
        exact this.2.2 M' (small_of_swap (S := S) hups husm rfl hM')
      | 1, _ =>
        have := hA.ups 0 (by simp) (by rw [hups]; simp)
        simp only [hups] at this
        refine ⟨this.1, this.2.1, fun M' hM' => ?_⟩
        have h3 := this.2.2 M' (small_of_swap (S := S) hups husm rfl hM')
        simp only [List.getElem_cons_zero, husm, if_true] at h3
        simp only [List.getElem_cons_succ, List.getElem_cons_zero, husm, if_true]
        exact h3
    intro M' hM' q hq h1 h2
    have happ : applyAll g [request true [x], request false [x]] = (g ++ [x.triple]).filter fun t => decide (t ∉ [x.triple]) := rfl
    have hdel : DelOk (fun t => decide (q.Matches t)) g [request true [x], request false [x]] := by
      refine ⟨fun h => by simp [request, isAdd] at h, fun _ h => ?_, trivial⟩
      obtain ⟨t, ht⟩ := List.exists_mem_of_ne_nil _ h
      obtain ⟨ht1, ht2⟩ := List.mem_filter.1 ht
      refine List.ne_nil_of_mem (List.mem_filter.2 ⟨List.mem_append.2 (.inr ht1), ht2⟩)
    obtain ⟨out, o1, o2, o3⟩ := (hhold.query G.loaded G.nodup G.envOk hM' (by simp [request_triples]; omega) q hq hd h1 h2 (.inl G.notEmpty)).1 hdel
    have hnd : (applyAll g [request true [x], request false [x]]).Nodup := by
      rw [happ, List.filter_append, show ([x.triple].filter fun t => decide (t ∉ [x.triple])) = [] by simp, List.append_nil]
      exact List.Pairwise.filter _ G.nodup
    refine ⟨out, o1, strict_rows o2 hnd o3, fun r => ?_⟩
    rw [o3.mem_iff, List.mem_map]
    have hm : ∀ t, t ∈ applyAll g [request true [x], request false [x]] ↔ t ∈ g ∧ t ≠ x.triple := by
      intro t
      rw [happ, List.mem_filter, List.mem_append]
      simp only [List.mem_singleton, decide_eq_true_eq]
      exact ⟨fun ⟨h, h'⟩ => ⟨h.resolve_right h', h'⟩, fun ⟨h, h'⟩ => ⟨.inl h, h'⟩⟩
    constructor
    · rintro ⟨t, z, w⟩
      obtain ⟨z, y⟩ := List.mem_filter.1 z
      have := (hm t).1 z
      exact ⟨t, ⟨(hcon t).2 this, this.2⟩, by simpa using y, w⟩
    · rintro ⟨t, z, w, y⟩
      exact ⟨t, List.mem_filter.2 ⟨(hm t).2 ((hcon t).1 z.1), by simpa using w⟩, y⟩

/-! ## Non-vacuity -/

/-- Two triples, alone with their subjects. -/
def exTwo : List T3 := [(1, 2, 3), (4, 5, 6)]

theorem exTwoOk : exConfig.Ok exTwo where
  sort := sortRows_sorts
  nindices := by decide
  skip := by decide
  fixed := .inl rfl
  ids := by decide
  len := by decide
  nfiles := by
    intro i
    by_cases hi : i < 6
    · have : ∀ i, i < 6 → (exConfig.ins exTwo i).store.files.length ≤ 2 ^ 15 := by decide +kernel
      exact this i hi
    · have : ¬ permsOf 6 i = true := fun h => hi (permsOf_lt h)
      rw [ins_neg this]; decide
  fsize := by
    intro i
    by_cases hi : i < 6
    · have : ∀ i, i < 6 → ∀ f ∈ (exConfig.ins exTwo i).store.files, f.bytes.length < 2 ^ 40 := by decide +kernel
      exact this i hi
    · have : ¬ permsOf 6 i = true := fun h => hi (permsOf_lt h)
      rw [ins_neg this]; decide

theorem exTwo_ground : ∃ m Mm, (∀ i, i < 6 → Mapped m (Mm i) (exConfig.ins exTwo i).store.files) ∧
    Ground (exConfig.open' exTwo m Mm) (exTwo.map T3.triple) exEnv msorts msort (Obj.keys (tally ((exTwo.map T3.triple).map (·.s)))) := by
  obtain ⟨m, Mm, hMm⟩ := exists_mapped fun i => (exConfig.ins exTwo i).store.files
  exact ⟨m, Mm, hMm, exTwoOk.loaded hMm, by decide, by decide, .inl rfl, exEnv_ok, msorts_ok, msort_specD, keys_idem _, _, keys_returns _, tally_isTermList _⟩

/-- Add a subject, delete one, add another. -/
def exThree : List (Bool × List T3) := [(true, [(7, 8, 9)]), (false, [(4, 5, 6)]), (true, [(8, 1, 1)])]

theorem exThree_content1 (t : Triple) : holdsAfter (· ∈ exTwo.map T3.triple) [request true [(7, 8, 9)]] t ↔ t = ⟨1, 2, 3⟩ ∨ t = ⟨4, 5, 6⟩ ∨ t = ⟨7, 8, 9⟩ := by
  show t ∈ exTwo.map T3.triple ∨ t ∈ [((7, 8, 9) : T3)].map T3.triple ↔ _
  simp [exTwo, T3.triple, or_assoc]

theorem exThree_content2 (t : Triple) : holdsAfter (holdsAfter (· ∈ exTwo.map T3.triple) [request true [(7, 8, 9)]]) [request false [(4, 5, 6)]] t ↔ t = ⟨1, 2, 3⟩ ∨ t = ⟨7, 8, 9⟩ := by
  show holdsAfter (· ∈ exTwo.map T3.triple) [request true [(7, 8, 9)]] t ∧ t ∉ [((4, 5, 6) : T3)].map T3.triple ↔ _
  rw [exThree_content1]
  constructor
  · rintro ⟨rfl | rfl | rfl, h⟩
    · exact .inl rfl
    · exact absurd (by decide) h
    · exact .inr rfl
  · rintro (rfl | rfl)
    · exact ⟨.inl rfl, by decide⟩
    · exact ⟨.inr (.inr rfl), by decide⟩

theorem exThree_subjects : SubjectsChange (· ∈ exTwo.map T3.triple) (requests exThree) := by
  refine ⟨.inr ⟨7, fun h => ?_⟩, .inr ⟨4, fun h => ?_⟩, .inr ⟨8, fun h => ?_⟩, trivial⟩
  · obtain ⟨t, ht, e⟩ := h.2 ⟨⟨7, 8, 9⟩, .inr (by simp [T3.triple]), rfl⟩
    simp [exTwo, T3.triple] at ht
    rcases ht with rfl | rfl <;> simp at e
  · obtain ⟨t, ht, e⟩ := h.1 ⟨⟨4, 5, 6⟩, .inl (by simp [exTwo, T3.triple]), rfl⟩
    rcases (exThree_content2 t).1 ht with rfl | rfl <;> simp at e
  · obtain ⟨t, ht, e⟩ := h.2 ⟨⟨8, 1, 1⟩, .inr (by simp [T3.triple]), rfl⟩
    rcases (exThree_content2 t).1 ht with rfl | rfl <;> simp at e

theorem exThree_back : NeverBack (exTwo.map T3.triple) (· ∈ exTwo.map T3.triple) (requests exThree) := by
  refine ⟨?_, ?_, ?_, trivial⟩
  · exact fun ts e t ht hg => hg
  · exact fun ts e => nomatch e
  · intro ts e t ht hg
    obtain rfl : [((8, 1, 1) : T3)].map T3.triple = ts := Update.add.inj e
    simp [exTwo, T3.triple] at ht hg
    rcases hg with rfl | rfl <;> simp at ht

/-- The kinds of the updates are those of the files. -/
theorem kinds_unique {sortT : Sorter} {fuel : Nat} {base : Obj} {g : List Triple} {X : Counted} {us us' : List Update} (h : CountedOk sortT fuel base g X us)
    (h' : CountedOk sortT fuel base g X us') (a : Bool) : (us.filter fun u => isAdd u == a).length = (us'.filter fun u => isAdd u == a).length := by
  have key : ∀ {vs : List Update}, CountedOk sortT fuel base g X vs → vs.map isAdd = X.disk.ups.map (·.add) := by
    intro vs hv
    apply List.ext_getElem
    · rw [List.length_map, List.length_map, hv.disk.len]
    · intro i h1 h2
      rw [List.getElem_map, List.getElem_map]
      exact (hv.disk.ups i (by simpa using h1) (by simpa using h2)).1.symm
  have cnt : ∀ vs : List Update, (vs.filter fun u => isAdd u == a).length = ((vs.map isAdd).filter fun b => b == a).length := by
    intro vs
    rw [List.filter_map, List.length_map]; rfl
  rw [cnt, cnt, key h, key h']

/-- The hypotheses of `C26_merge_partial` hold for three requests, and merging leaves an addition and a deletion, numbered 0 and 1; so those of
`C26_update_after_merge_partial` hold too, and a further request has its effect. -/
example : ∃ kb g E S, ∃ sortT base rnd M X M', Recorded26 kb g E S sortT base rnd M exThree X ∧ InLimits g E exThree ∧ volume exThree < 2 ^ 24 ∧
    SubjectsChange (· ∈ g) (requests exThree) ∧ NeverBack g (· ∈ g) (requests exThree) ∧ M'.Of X.disk ∧
    ∃ N, mergeUpdates kb E S rnd M' X = .done N ∧ N.ups.map (·.1) = [0, 1] ∧
    ∃ N', N.updates kb E S rnd M 0 [(true, [(4, 5, 6)])] = some N' ∧ ∀ d, kb.Reads d → Shows kb E N'.disk d (content g (exThree ++ [(true, [(4, 5, 6)])])) := by
  obtain ⟨m, Mm, hMm, G⟩ := exTwo_ground
  have hM := fun (_ : Nat) (D : Disk) => Classical.choose_spec (exists_mapping D)
  have L2 : InLimits (exTwo.map T3.triple) exEnv (exThree ++ [(true, [(4, 5, 6)])]) := ⟨⟨by decide, by decide⟩, by decide, by decide⟩
  have L : InLimits (exTwo.map T3.triple) exEnv exThree := ⟨⟨by decide, by decide⟩, by decide, by decide⟩
  obtain ⟨X1, s1, c1, k1⟩ := G.step_alone (fun _ _ => (true, false)) (CountedOk.empty msort exEnv.fuel _ _) trivial (hM 0 _) true (a := (7, 8, 9)) (by unfold Fits; decide) (by decide) (by decide)
    (by decide) (by decide)
  obtain ⟨X2, s2, c2, k2⟩ := G.step_alone (fun _ _ => (true, false)) c1 k1 (hM 1 _) false (a := (4, 5, 6)) (by unfold Fits; decide) (by decide) (by decide) (by decide) (by decide)
  obtain ⟨X, s3, c3, k3⟩ := G.step_alone (fun _ _ => (true, false)) c2 k2 (hM 2 _) true (a := (8, 1, 1)) (by unfold Fits; decide) (by decide) (by decide) (by decide) (by decide)
  have H : Recorded26 _ _ _ _ _ _ (fun _ _ _ => (true, false)) _ exThree X := ⟨G, hM, updatesC_cons s1 (updatesC_cons s2 (updatesC_cons s3 rfl))⟩
  obtain ⟨us, N, TA, TR, F, P, -, hAg, e⟩ := H.merged L (by decide) exThree_subjects exThree_back (hM 0 X.disk) (fun _ _ _ => (true, false))
  obtain ⟨-, -, f3, f4, f5⟩ := net_fold (g := exTwo.map T3.triple) (A := []) (R := []) F.ok.disk.fresh (by simp) (by simp) (by simp)
  have hc : ∀ t, t ∈ applyAll (exTwo.map T3.triple) us ↔ t = ⟨1, 2, 3⟩ ∨ t = ⟨7, 8, 9⟩ ∨ t = ⟨8, 1, 1⟩ := by
    intro t
    rw [F.sem]
    show holdsAfter (holdsAfter (· ∈ exTwo.map T3.triple) [request true [(7, 8, 9)]]) [request false [(4, 5, 6)]] t ∨ t ∈ [((8, 1, 1) : T3)].map T3.triple ↔ _
    rw [exThree_content2]
    simp [T3.triple, or_assoc]
  have hA : (⟨7, 8, 9⟩ : Triple) ∈ sumOf true us := by
    rcases (f5 ⟨7, 8, 9⟩).1 ((hc _).2 (.inr (.inl rfl))) with h | h
    · exact h
    · exact absurd h.1 (by decide)
  have hR : (⟨4, 5, 6⟩ : Triple) ∈ sumOf false us := by
    by_cases h : (⟨4, 5, 6⟩ : Triple) ∈ sumOf false us
    · exact h
    · exact absurd ((hc _).1 ((f5 ⟨4, 5, 6⟩).2 (.inr ⟨by decide, h⟩))) (by decide)
  have hA0 : (⟨7, 8, 9⟩ : Triple) ∉ sumOf false us := fun h => f4 _ h (f3 _ hA)
  have hR0 : (⟨4, 5, 6⟩ : Triple) ∉ sumOf true us := fun h => f4 _ hR (f3 _ h)
  have hA' : (⟨7, 8, 9⟩ : Triple) ∈ left true us := List.mem_filter.2 ⟨hA, by simpa using hA0⟩
  have hR' : (⟨4, 5, 6⟩ : Triple) ∈ left false us := List.mem_filter.2 ⟨hR, by simpa using hR0⟩
  have hTA : TA.isEmpty = false := by
    cases TA with
    | nil => exact absurd ((P.memA _).2 hA') (by simp)
    | cons => rfl
  have hTR : TR.isEmpty = false := by
    cases TR with
    | nil => exact absurd ((P.memR _).2 ⟨hR', by decide⟩) (by simp)
    | cons => rfl
  rw [if_neg (by rw [kinds_unique F.ok c3 true]; exact fun h => absurd h.1 (by decide)), if_neg (by rw [P.ups, hTA]; simp)] at e
  have hnum : N.ups.map (·.1) = [0, 1] := by
    obtain ⟨u, hu, hk, -⟩ := left_mem hA'
    have hex : ∃ u ∈ us, isAdd u = true := ⟨u, hu, hk⟩
    rw [P.nums, hTA, hTR, if_pos hex]
    rfl
  have hlen : N.ups.length = 2 := by
    have := congrArg List.length hnum
    simpa using this
  obtain ⟨N', n1, n2⟩ := C26_update_after_merge_partial _ _ _ _ _ _ _ _ _ X H (by decide) exThree_subjects exThree_back _ (hM 0 X.disk) _ N e (by rw [hnum, hlen]; rfl)
    [(true, [(4, 5, 6)])] L2 (fun _ _ _ => (true, false))
  exact ⟨_, _, _, _, _, _, _, _, X, _, H, L, by decide, exThree_subjects, exThree_back, hM 0 X.disk, N, e, hnum, N', n1, n2⟩

/-- The four refutations apply to the example: (1,5,3) is added to the subject 1, (1,2,3) is deleted and added back, and so on. -/
example : ∃ kb g E S, ∃ sortT base, Ground kb g E S sortT base ∧ ∀ M : Nat → Disk → Mapping, (∀ n D, (M n D).Of D) → ∀ rnd : Nat → Nat → Nat → Bool × Bool,
    (∃ X N, Recorded26 kb g E S sortT base rnd M [(true, [(7, 8, 9)]), (true, [(1, 5, 3)])] X ∧ mergeUpdates kb E S rnd (M 2 X.disk) X = .done N) ∧
    (∃ X, Recorded26 kb g E S sortT base rnd M [(true, [(4, 4, 4)]), (true, [(1, 5, 3)])] X ∧ mergeUpdates kb E S rnd (M 2 X.disk) X = .undef) ∧
    (∃ X N, Recorded26 kb g E S sortT base rnd M [(false, [(1, 2, 3)]), (true, [(1, 2, 3)]), (false, [(4, 5, 6)])] X ∧ mergeUpdates kb E S rnd (M 3 X.disk) X = .done N) ∧
    (∃ X N, Recorded26 kb g E S sortT base rnd M [(true, [(7, 8, 9)]), (false, [(7, 8, 9)]), (false, [(1, 2, 3)])] X ∧ mergeUpdates kb E S rnd (M 3 X.disk) X = .done N) := by
  obtain ⟨m, Mm, -, G⟩ := exTwo_ground
  refine ⟨_, _, _, _, _, _, G, fun M hM rnd => ⟨?_, ?_, ?_, ?_⟩⟩
  · obtain ⟨X, N, a, b, -⟩ := C26_addition_lost_violated _ _ _ _ _ _ G rnd rnd M hM (1, 5, 3) (7, 8, 9) (by unfold Fits; decide) (by unfold Fits; decide) (by decide) (by decide) (by decide)
      (by decide) (by decide)
    exact ⟨X, N, a, b⟩
  · obtain ⟨X, a, b⟩ := C26_undefined_violated _ _ _ _ _ _ G rnd rnd M hM (1, 5, 3) (4, 4, 4) (by unfold Fits; decide) (by unfold Fits; decide) (by decide) (by decide) (by decide) (by decide)
      (by decide) (by decide)
    exact ⟨X, a, b⟩
  · obtain ⟨X, N, a, b, -⟩ := C26_added_back_violated _ _ _ _ _ _ G rnd rnd M hM (1, 2, 3) (4, 5, 6) (by unfold Fits; decide) (by unfold Fits; decide) (by decide) (by decide) (by decide)
      (by decide) (by decide) (by decide)
    exact ⟨X, N, a, b⟩
  · obtain ⟨X, N, N', a, b, -⟩ := C26_next_number_violated _ _ _ _ _ _ G rnd rnd (rnd 0) M hM (1, 2, 3) (7, 8, 9) (by unfold Fits; decide) (by unfold Fits; decide) (by decide) (by decide) (by decide)
      (by decide)
    exact ⟨X, N, a, b⟩

end Trident
