import Verif.Sparql.PlanExec
/-! # The operators of a plan return its solutions -/
namespace Trident.Sparql.PlanGen
open Analysis (PElem)
open Spec (value fits beside choices)

/-! ## Scans -/

theorem mem_beside {n : Node} {t : Triple} {e : PElem Nat × Nat} : e ∈ beside n t ↔ ∃ s, s < 3 ∧ e = (n.slot s, t.slot s) := by
  unfold beside
  simp only [List.mem_cons, List.not_mem_nil, or_false]
  constructor
  · rintro (h | h | h)
    · exact ⟨0, by omega, h⟩
    · exact ⟨1, by omega, h⟩
    · exact ⟨2, by omega, h⟩
  · rintro ⟨s, hs, h⟩
    match s, hs with
    | 0, _ => exact Or.inl h
    | 1, _ => exact Or.inr (Or.inl h)
    | 2, _ => exact Or.inr (Or.inr h)

theorem varAt_slot {n : Node} {s x : Nat} : n.varAt s = some x ↔ n.slot s = .var x := by
  unfold Node.varAt
  split
  · rename_i y h; rw [h]; simp
  · rename_i y h; rw [h]; simp

theorem varAt_unique {n : Node} (hn : n.vars.Nodup) {s s' x : Nat} (hs : s < 3) (hs' : s' < 3) (h : n.varAt s = some x) (h' : n.varAt s' = some x) : s = s' := by
  unfold Node.vars at hn
  match s, s', hs, hs' with
  | 0, 0, _, _ => rfl
  | 1, 1, _, _ => rfl
  | 2, 2, _, _ => rfl
  | 0, 1, _, _ => simp [h, h'] at hn
  | 1, 0, _, _ => simp [h, h'] at hn
  | 0, 2, _, _ => exfalso; cases h1 : n.varAt 1 <;> simp [h, h', h1] at hn
  | 2, 0, _, _ => exfalso; cases h1 : n.varAt 1 <;> simp [h, h', h1] at hn
  | 1, 2, _, _ => exfalso; cases h1 : n.varAt 0 <;> simp [h, h', h1] at hn
  | 2, 1, _, _ => exfalso; cases h1 : n.varAt 0 <;> simp [h, h', h1] at hn

theorem value_beside {n : Node} (hn : n.vars.Nodup) {t : Triple} {s x : Nat} (hs : s < 3) (h : n.varAt s = some x) : value (beside n t) x = some (t.slot s) := by
  have hx : x ∈ cvars (beside n t) := mem_cvars.2 ⟨t.slot s, mem_beside.2 ⟨s, hs, by rw [varAt_slot.1 h]⟩⟩
  obtain ⟨v, hv⟩ := value_isSome.2 hx
  obtain ⟨s', hs', e⟩ := mem_beside.1 (mem_of_value hv)
  have e1 : PElem.var x = n.slot s' := congrArg Prod.fst e
  have e2 : v = t.slot s' := congrArg Prod.snd e
  rw [hv, e2, varAt_unique hn hs hs' h (varAt_slot.2 e1.symm)]

theorem fits_beside {n : Node} (hn : n.vars.Nodup) {t : Triple} {slots : List Nat} (hsl : ∀ s ∈ slots, s < 3) (hun : ∀ s, s ∉ slots → s < 3 → ∃ x, n.varAt s = some x) :
    fits (beside n t) = matchesSlots n slots t := by
  rw [Bool.eq_iff_iff, fits_iff]
  unfold matchesSlots
  rw [List.all_eq_true]
  constructor
  · rintro ⟨_, h2⟩ s hs
    split
    · rename_i k hk
      simpa using h2 k (t.slot s) (mem_beside.2 ⟨s, hsl s hs, by rw [hk]⟩)
    · rfl
  · intro h
    constructor
    · intro x v hm
      obtain ⟨s, hs, e⟩ := mem_beside.1 hm
      have e1 : PElem.var x = n.slot s := congrArg Prod.fst e
      have e2 : v = t.slot s := congrArg Prod.snd e
      rw [value_beside hn hs (varAt_slot.2 e1.symm), e2]
    · intro k v hm
      obtain ⟨s, hs, e⟩ := mem_beside.1 hm
      have e1 : PElem.const k = n.slot s := congrArg Prod.fst e
      have e2 : v = t.slot s := congrArg Prod.snd e
      by_cases hin : s ∈ slots
      · have := h s hin
        rw [← e1] at this
        rw [e2]; simpa using this
      · obtain ⟨x, hx⟩ := hun s hin hs
        rw [varAt_slot, ← e1] at hx
        cases hx

theorem slotValue_eq {n : Node} (hn : n.vars.Nodup) {t : Triple} {slots : List Nat} {s x : Nat} (hs : s < 3) (hin : s ∈ slots) (h : n.varAt s = some x) :
    slotValue n slots t x = t.slot s := by
  unfold slotValue
  match hf : ([2, 1, 0].filter slots.contains).findSome? fun s => if n.varAt s = some x then some (t.slot s) else none with
  | none =>
    rw [List.findSome?_eq_none_iff] at hf
    have := hf s (List.mem_filter.2 ⟨by simp; omega, by simpa using hin⟩)
    simp [h] at this
  | some v =>
    obtain ⟨s', hs', he⟩ := List.exists_of_findSome?_eq_some hf
    have hs3 : s' < 3 := by
      have := (List.mem_filter.1 hs').1
      simp at this; omega
    split at he
    · rename_i h'
      cases he
      rw [varAt_unique hn hs hs3 h h']; rfl
    · cases he

/-! ## Rows -/

/-- Rows with values for `names` that are those of the solutions. -/
structure Rows (A : List Choice) (names : List Nat) (ord : Option Nat) (rows : List Row) : Prop where
  pos : ∀ r ∈ rows, r.1 ≠ 0
  perm : (expand rows).Perm (A.map fun c => names.map (val c))
  sorted : ∀ x ∈ names, ord = some x → rows.Pairwise fun a b => look names a.2 x ≤ look names b.2 x

theorem Rows.shape {A : List Choice} {names : List Nat} {rows : List Row} (hp : ∀ r ∈ rows, r.1 ≠ 0) (h : (expand rows).Perm (A.map fun c => names.map (val c))) {r : Row} (hr : r ∈ rows) :
    ∃ c ∈ A, r.2 = names.map (val c) := by
  have h1 : r.2 ∈ expand rows := mem_expand.2 ⟨r, hr, hp r hr, rfl⟩
  obtain ⟨c, hc, he⟩ := List.mem_map.1 (h.mem_iff.1 h1)
  exact ⟨c, hc, he.symm⟩

theorem scan_rows {db : List Triple} {q : Query} {proj : List Nat} {k : Kind} {o : Ord} {i : Nat} {rows : List Row} (hn : (q.node i).vars.Nodup) (hw : WF q (.scan k o false i))
    (h : ScanRows db q k o false i (cols q proj (.scan k o false i)) rows) :
    Rows (sols db q (.scan k o false i)) (cols q proj (.scan k o false i)) ((Plan.scan k o false i).ordering q) rows := by
  refine ⟨h.pos, ?_, h.sorted⟩
  have h1 : (expand rows).Perm ((db.filter (matchesSlots (q.node i) (scanSlots k o))).map fun d => (cols q proj (.scan k o false i)).map (slotValue (q.node i) (scanSlots k o) d)) :=
    List.perm_iff_count.2 fun t => by rw [count_expand, h.bag]
  refine h1.trans (.of_eq ?_)
  simp only [sols]
  rw [List.filter_map, List.map_map]
  have hun : ∀ s, s ∉ scanSlots k o → s < 3 → ∃ x, (q.node i).varAt s = some x := by
    intro s hs h3
    have := hw.2.2.1 s hs h3
    unfold unusedAt at this
    match hv : (q.node i).varAt s with
    | none => rw [hv] at this; cases this
    | some x => exact ⟨x, rfl⟩
  have hfil : db.filter (fits ∘ beside (q.node i)) = db.filter (matchesSlots (q.node i) (scanSlots k o)) :=
    List.filter_congr fun t _ => fits_beside hn (fun s hs => slots_lt hs) hun
  rw [hfil]
  refine List.map_congr_left fun t _ => List.map_congr_left fun x hx => ?_
  simp only [cols] at hx
  rw [mem_setOf, List.mem_filter, List.mem_filterMap] at hx
  obtain ⟨⟨s, hs, hv⟩, _⟩ := hx
  rw [slotValue_eq hn (slots_lt hs) hs hv, val, value_beside hn (slots_lt hs) hv]; rfl

theorem filter_rows {A : List Choice} {names names' : List Nat} {ord : Option Nat} {rows : List Row} (f : Filt) (hf : ∀ g g' : Nat → Option Nat, (∀ x ∈ f.vars, g x = g' x) → f.holds g = f.holds g')
    (h : Rows A names ord rows) (hsub : ∀ x ∈ names', x ∈ names) (hv : ∀ c ∈ A, ∀ x ∈ f.vars, x ∈ names ↔ x ∈ cvars c) :
    Rows (A.filter fun c => f.holds (value c)) names' ord (pick names names' (rows.filter fun r => f.holds fun x => if names.contains x then some (look names r.2 x) else none)) := by
  refine ⟨?_, ?_, ?_⟩
  · intro r hr
    obtain ⟨r', hr', rfl⟩ := List.mem_map.1 hr
    exact h.pos r' (List.mem_filter.1 hr').1
  · refine pick_perm (names := names) ?_ hsub
    rw [expand_filter fun t => f.holds fun x => if names.contains x then some (look names t x) else none]
    refine (h.perm.filter _).trans (.of_eq ?_)
    rw [List.filter_map]
    congr 1
    refine List.filter_congr fun c hc => ?_
    simp only [Function.comp]
    refine hf _ _ fun x hx => ?_
    by_cases hm : x ∈ names
    · rw [if_pos (by simpa using hm), look_map' hm, value_eq_val ((hv c hc x hx).1 hm)]
    · rw [if_neg (by simpa using hm), value_none fun hc' => hm ((hv c hc x hx).2 hc')]
  · intro x hx ho
    have := (h.sorted x (hsub x hx) ho).filter fun r => f.holds fun x => if names.contains x then some (look names r.2 x) else none
    unfold pick
    rw [List.pairwise_map]
    refine this.imp fun {a b} hab => ?_
    show look names' (names'.map (look names a.2)) x ≤ look names' (names'.map (look names b.2)) x
    rw [look_map' hx, look_map' hx]
    exact hab

theorem NLReturns_unique {left right out : List Row} (h : Algebra.NLReturns left right out) : out = Trident.Sparql.Spec.product left right := by
  have h' := Algebra.C76_nested_loop left right
  unfold Algebra.NLReturns at h h'
  match left with
  | [] => simp only at h h'; rw [h, h']
  | l :: ls =>
    simp only at h h'
    split at h
    · rename_i e; rw [e] at h'; simp only at h'; rw [h, h']
    · exact h.elim
    · rename_i r s e
      rw [e] at h'
      simp only at h'
      obtain ⟨o, h1, rfl⟩ := h
      obtain ⟨o', h2, e2⟩ := h'
      rw [e2, h1.unique h2]

theorem product_perm (L R : List Row) : (expand (Trident.Sparql.Spec.product L R)).Perm ((expand R).flatMap fun b => ((expand L).filter fun a => (fun _ _ => true) a b).map (· ++ b)) := by
  refine List.Perm.trans ?_ (join_perm (fun _ _ => true) L R)
  have h1 := flatMap_comm_perm L R fun l r => (l.1 * r.1, l.2 ++ r.2)
  have h2 : (Trident.Sparql.Spec.product L R).Perm (R.flatMap fun r => (L.filter fun l => (fun _ _ => true) l.2 r.2).map fun l => (l.1 * r.1, l.2 ++ r.2)) := by
    refine h1.trans (.of_eq ?_)
    have ht : ∀ l : List Row, l.filter (fun _ => true) = l := fun l => List.filter_eq_self.2 fun _ _ => rfl
    simp only [ht]
  exact h2.flatMap_right _

theorem product_pos {L R : List Row} (hL : ∀ r ∈ L, r.1 ≠ 0) (hR : ∀ r ∈ R, r.1 ≠ 0) : ∀ r ∈ Trident.Sparql.Spec.product L R, r.1 ≠ 0 := by
  intro x hx
  unfold Trident.Sparql.Spec.product at hx
  obtain ⟨l, hl, h1⟩ := List.mem_flatMap.1 hx
  obtain ⟨r, hr, rfl⟩ := List.mem_map.1 h1
  exact Nat.mul_ne_zero (hL l hl) (hR r hr)

theorem output_pos {names cl cr js : List Nat} {out : List Row} (h : ∀ r ∈ out, r.1 ≠ 0) : ∀ r ∈ output names cl cr (select js cl cr out), r.1 ≠ 0 := by
  intro x hx
  obtain ⟨r, hr, rfl⟩ := List.mem_map.1 hx
  exact h r (List.mem_filter.1 hr).1

theorem fits_pair {db : List Triple} {q : Query} {l r : Plan} {c d : Choice} (hc : c ∈ sols db q l) (hd : d ∈ sols db q r) :
    fits (c ++ d) = (joinVars q l r).all fun x => val c x == val d x := by
  obtain ⟨fc, vc⟩ := mem_sols hc
  obtain ⟨fd, vd⟩ := mem_sols hd
  rw [Bool.eq_iff_iff, fits_append, List.all_eq_true, vc, vd]
  constructor
  · rintro ⟨_, _, h⟩ x hx
    have := mem_joinVars.1 hx
    simpa using h x this.1 this.2
  · intro h
    exact ⟨fc, fd, fun x h1 h2 => by simpa using h x (mem_joinVars.2 ⟨h1, h2⟩)⟩

/-- What is known about the registers of the sides of a join. -/
structure Sides (q : Query) (proj cl cr names : List Nat) (l r : Plan) : Prop where
  left : ∀ x, x ∈ cl ↔ x ∈ proj ++ joinVars q l r ∧ x ∈ l.vars q
  right : ∀ x, x ∈ cr ↔ x ∈ proj ++ joinVars q l r ∧ x ∈ r.vars q
  out : ∀ x, x ∈ names → x ∈ proj ∧ x ∈ l.vars q ++ r.vars q

theorem Sides.join {q : Query} {proj cl cr names : List Nat} {l r : Plan} (h : Sides q proj cl cr names l r) {x : Nat} (hx : x ∈ joinVars q l r) : x ∈ cl ∧ x ∈ cr :=
  ⟨(h.left x).2 ⟨List.mem_append_right _ hx, (mem_joinVars.1 hx).1⟩, (h.right x).2 ⟨List.mem_append_right _ hx, (mem_joinVars.1 hx).2⟩⟩

theorem Sides.names {db : List Triple} {q : Query} {proj cl cr names : List Nat} {l r : Plan} (h : Sides q proj cl cr names l r) {cl' cr' : List Nat}
    (hl : ∀ x, x ∈ cl' ↔ x ∈ cl) (hr : ∀ x, x ∈ cr' ↔ x ∈ cr) :
    ∀ c ∈ sols db q l, ∀ d ∈ sols db q r, ∀ x ∈ names, (x ∈ cl' → val (c ++ d) x = val c x) ∧ (x ∉ cl' → val (c ++ d) x = val d x ∧ x ∈ cr') := by
  intro c hc d hd x hx
  obtain ⟨_, vc⟩ := mem_sols hc
  obtain ⟨hp, hv⟩ := h.out x hx
  constructor
  · intro hm
    exact val_append_left (vc ▸ ((h.left x).1 ((hl x).1 hm)).2)
  · intro hm
    have hnl : x ∉ l.vars q := fun hxl => hm ((hl x).2 ((h.left x).2 ⟨List.mem_append_left _ hp, hxl⟩))
    exact ⟨val_append_right (vc ▸ hnl), (hr x).2 ((h.right x).2 ⟨List.mem_append_left _ hp, (List.mem_append.1 hv).resolve_left hnl⟩)⟩

theorem look_col (x : Nat) (l : List Nat) (t : Tup) : look (front x l) t x = col t 0 := by
  unfold look front
  cases t with
  | nil => rfl
  | cons a t => simp [col]

theorem nest_rows {db : List Triple} {q : Query} {proj cl cr names : List Nat} {l r : Plan} {ol orr : Option Nat} {lo ro out : List Row}
    (hs : Sides q proj cl cr names l r) (hl : Rows (sols db q l) cl ol lo) (hr : Rows (sols db q r) cr orr ro) (hov : ∀ x, ol = some x → x ∈ l.vars q) (h : Algebra.NLReturns lo ro out) :
    Rows (both (sols db q l) (sols db q r)) names ol (output names cl cr (select (joinVars q l r) cl cr out)) := by
  have hout := NLReturns_unique h
  subst hout
  refine ⟨output_pos (product_pos hl.pos hr.pos), ?_, ?_⟩
  · refine join_rows (p := fun _ _ => true) hl.perm hr.perm (product_perm lo ro) (fun x hx => hs.join hx) (hs.names (fun _ => Iff.rfl) (fun _ => Iff.rfl)) ?_
    intro c hc d hd
    rw [fits_pair hc hd]; rfl
  · intro x hx ho
    obtain ⟨hp, hv⟩ := hs.out x hx
    have hxl : x ∈ cl := (hs.left x).2 ⟨List.mem_append_left _ hp, hov x ho⟩
    unfold output
    rw [List.pairwise_map]
    refine List.Pairwise.filter _ ?_
    have hlook : ∀ t : Row, look names (names.map fun x => if cl.contains x then look cl t.2 x else look cr (t.2.drop cl.length) x) x = look cl t.2 x := by
      intro t
      rw [look_map' hx, if_pos (by simpa using hxl)]
    have hl2 : ∀ a ∈ lo, ∀ w, look cl (a.2 ++ w) x = look cl a.2 x := by
      intro a ha w
      obtain ⟨c, _, e⟩ := Rows.shape hl.pos hl.perm ha
      rw [e, look_map hxl, look_map' hxl]
    simp only [hlook]
    unfold Trident.Sparql.Spec.product
    rw [List.pairwise_flatMap]
    refine ⟨?_, ?_⟩
    · intro a ha
      rw [List.pairwise_map]
      refine List.pairwise_of_forall fun b b' => ?_
      show look cl (a.2 ++ b.2) x ≤ look cl (a.2 ++ b'.2) x
      rw [hl2 a ha, hl2 a ha]; exact Nat.le_refl _
    · refine List.Pairwise.imp_of_mem ?_ (hl.sorted x hxl ho)
      intro a a' ha ha' hle u hu v hv'
      obtain ⟨b, _, rfl⟩ := List.mem_map.1 hu
      obtain ⟨b', _, rfl⟩ := List.mem_map.1 hv'
      show look cl (a.2 ++ b.2) x ≤ look cl (a'.2 ++ b'.2) x
      rw [hl2 a ha, hl2 a' ha']; exact hle

theorem agree_front {x : Nat} {cl cr : List Nat} {f g : Nat → Nat} : Spec.agree ((front x cl).map f) ((front x cr).map g) = (f x == g x) := by
  unfold Spec.agree front
  simp

theorem all_front {x : Nat} {js : List Nat} (hx : x ∈ js) (f : Nat → Bool) : (f x && (js.filter (· != x)).all f) = js.all f := by
  rw [Bool.eq_iff_iff, Bool.and_eq_true, List.all_eq_true, List.all_eq_true]
  constructor
  · rintro ⟨h1, h2⟩ y hy
    by_cases e : y = x
    · exact e ▸ h1
    · exact h2 y (List.mem_filter.2 ⟨hy, by simpa using e⟩)
  · intro h
    exact ⟨h x hx, fun y hy => h y (List.mem_filter.1 hy).1⟩

/-- What merge and hash joins have in common. -/
theorem equi_rows {db : List Triple} {q : Query} {proj cl cr names : List Nat} {l r : Plan} {ol orr : Option Nat} {lo ro out : List Row} {x : Nat}
    (hs : Sides q proj cl cr names l r) (hl : Rows (sols db q l) cl ol lo) (hr : Rows (sols db q r) cr orr ro) (hx : x ∈ joinVars q l r)
    (hb : ∀ t, bag out t = bag (Spec.join (pick cl (front x cl) lo) (pick cr (front x cr) ro)) t) :
    (expand (output names (front x cl) (front x cr) (select ((joinVars q l r).filter (· != x)) (front x cl) (front x cr) out))).Perm
      ((both (sols db q l) (sols db q r)).map fun c => names.map (val c)) := by
  obtain ⟨hxl, hxr⟩ := hs.join hx
  have fl : ∀ y, y ∈ front x cl ↔ y ∈ cl := fun y => mem_front hxl
  have fr : ∀ y, y ∈ front x cr ↔ y ∈ cr := fun y => mem_front hxr
  refine join_rows (p := Spec.agree) (L := pick cl (front x cl) lo) (R := pick cr (front x cr) ro) (pick_perm hl.perm fun y hy => (fl y).1 hy) (pick_perm hr.perm fun y hy => (fr y).1 hy) ?_ ?_ (hs.names fl fr) ?_
  · exact (perm_of_bag hb).trans (join_perm Spec.agree _ _)
  · intro y hy
    have := hs.join (List.mem_filter.1 hy).1
    exact ⟨(fl y).2 this.1, (fr y).2 this.2⟩
  · intro c hc d hd
    rw [fits_pair hc hd, agree_front, all_front hx fun x => val c x == val d x]

theorem pick_front {A : List Choice} {cl : List Nat} {ol : Option Nat} {lo : List Row} {x : Nat} (hl : Rows A cl ol lo) :
    (∀ r ∈ pick cl (front x cl) lo, r.2 ≠ [] ∧ r.1 ≠ 0) := by
  intro r hr
  obtain ⟨r', hr', rfl⟩ := List.mem_map.1 hr
  exact ⟨by simp [front], hl.pos r' hr'⟩

theorem pick_sorted {A : List Choice} {cl : List Nat} {lo : List Row} {x : Nat} (hl : Rows A cl (some x) lo) (hx : x ∈ cl) :
    (pick cl (front x cl) lo).Pairwise fun a b => col a.2 0 ≤ col b.2 0 := by
  unfold pick
  rw [List.pairwise_map]
  exact (hl.sorted x hx rfl).imp fun {a b} h => by simpa [front, col] using h

theorem merge_rows {db : List Triple} {q : Query} {proj cl cr names : List Nat} {l r : Plan} {lo ro out : List Row} {x : Nat} {e : Merge.Env} (h1 : e.lo = false) (h2 : e.ro = false)
    (hs : Sides q proj cl cr names l r) (hl : Rows (sols db q l) cl (some x) lo) (hr : Rows (sols db q r) cr (some x) ro) (hx : x ∈ joinVars q l r)
    (h : Merge.Returns e (pick cl (front x cl) lo) (pick cr (front x cr) ro) out) :
    Rows (both (sols db q l) (sols db q r)) names (some x) (output names (front x cl) (front x cr) (select ((joinVars q l r).filter (· != x)) (front x cl) (front x cr) out)) := by
  obtain ⟨hxl, hxr⟩ := hs.join hx
  obtain ⟨out', g1, g2, g3, g4⟩ := Merge.join_good e h1 h2 _ _ (pick_front (x := x) hl) (pick_front (x := x) hr) (pick_sorted hl hxl) (pick_sorted hr hxr)
  have := h.unique g1
  subst this
  refine ⟨output_pos g3, equi_rows hs hl hr hx g2, ?_⟩
  intro y hy e
  cases e
  unfold output
  rw [List.pairwise_map]
  refine List.Pairwise.imp ?_ (g4.filter _)
  intro a b hab
  show look names _ x ≤ look names _ x
  rw [look_map' hy, look_map' hy, if_pos (by simp [front]), if_pos (by simp [front]), look_col, look_col]
  exact hab

theorem mem_choice_db {db : List Triple} {q : Query} {p : Plan} {b : Nat} (hdb : ∀ t ∈ db, t.1 < b ∧ t.2.1 < b ∧ t.2.2 < b) : ∀ {c : Choice}, c ∈ sols db q p → ∀ e ∈ c, e.2 < b := by
  have hboth : ∀ {x y : List Choice}, (∀ {c}, c ∈ x → ∀ e ∈ c, e.2 < b) → (∀ {c}, c ∈ y → ∀ e ∈ c, e.2 < b) → ∀ {c : Choice}, c ∈ both x y → ∀ e ∈ c, e.2 < b := by
    intro x y h1 h2 c hc e he
    obtain ⟨_, u, hu, v, hv, rfl⟩ := mem_both hc
    exact (List.mem_append.1 he).elim (h1 hu e) (h2 hv e)
  induction p with
  | scan k o f i =>
    intro c hc e he
    simp only [sols, List.mem_filter, List.mem_map] at hc
    obtain ⟨⟨t, ht, rfl⟩, _⟩ := hc
    obtain ⟨s, hs, rfl⟩ := mem_beside.1 he
    have := hdb t ht
    match s, hs with
    | 0, _ => exact this.1
    | 1, _ => exact this.2.1
    | 2, _ => exact this.2.2
  | filter j p ih => intro c hc; exact ih (List.mem_filter.1 hc).1
  | nest l r ih1 ih2 => exact hboth ih1 ih2
  | merge y l r ih1 ih2 => exact hboth ih1 ih2
  | hash l r ih1 ih2 => exact hboth ih1 ih2
  | cart l r ih1 ih2 => exact hboth ih1 ih2

theorem val_lt {c : Choice} {b x : Nat} (h : ∀ e ∈ c, e.2 < b) (hx : x ∈ cvars c) : val c x < b := by
  have := mem_of_value (value_eq_val hx)
  exact h _ this

theorem hash_bits {db : List Triple} {q : Query} {l : Plan} {cl : List Nat} {ol : Option Nat} {lo : List Row} {x : Nat} (hdb : ∀ t ∈ db, t.1 < 2 ^ 64 ∧ t.2.1 < 2 ^ 64 ∧ t.2.2 < 2 ^ 64)
    (hl : Rows (sols db q l) cl ol lo) (hcl : ∀ y ∈ cl, y ∈ l.vars q) (hx : x ∈ cl) : ∀ r ∈ pick cl (front x cl) lo, ∀ y ∈ r.2, y < 2 ^ 64 := by
  intro r hr y hy
  obtain ⟨c, hc, e⟩ := Rows.shape (names := front x cl) (fun r hr => (pick_front hl r hr).2) (pick_perm hl.perm fun y hy => (mem_front hx).1 hy) hr
  rw [e] at hy
  obtain ⟨z, hz, rfl⟩ := List.mem_map.1 hy
  exact val_lt (mem_choice_db hdb hc) ((mem_sols hc).2 ▸ hcl z ((mem_front hx).1 hz))

theorem hash_rows {db : List Triple} {q : Query} {proj cl cr names : List Nat} {l r : Plan} {ol orr : Option Nat} {lo ro out : List Row} {x wl wr reg0 : Nat}
    (hdb : ∀ t ∈ db, t.1 < 2 ^ 64 ∧ t.2.1 < 2 ^ 64 ∧ t.2.2 < 2 ^ 64)
    (hs : Sides q proj cl cr names l r) (hl : Rows (sols db q l) cl ol lo) (hr : Rows (sols db q r) cr orr ro) (hx : x ∈ joinVars q l r)
    (h : Hash.hashJoin (fun _ => true) false false wl wr reg0 (pick cl (front x cl) lo) (pick cr (front x cr) ro) = some out) :
    Rows (both (sols db q l) (sols db q r)) names none (output names (front x cl) (front x cr) (select ((joinVars q l r).filter (· != x)) (front x cl) (front x cr) out)) := by
  obtain ⟨hxl, hxr⟩ := hs.join hx
  obtain ⟨out', g1, g2⟩ := Hash.C69_join (fun _ => true) wl wr reg0 (pick cl (front x cl) lo) (pick cr (front x cr) ro) (fun r hr => (pick_front hl r hr).1) (fun r hr' => (pick_front hr r hr').1)
    (hash_bits hdb hl (fun y hy => ((hs.left y).1 hy).2) hxl) (fun _ _ h => by cases h)
  rw [h] at g1
  cases g1
  refine ⟨output_pos (Hash.hashJoin_pos (fun r hr => (pick_front hl r hr).2) (fun r hr' => (pick_front hr r hr').2) h), equi_rows hs hl hr hx g2, ?_⟩
  intro y _ e; cases e

theorem cart_rows {db : List Triple} {q : Query} {proj cl cr names : List Nat} {l r : Plan} {ol orr : Option Nat} {lo ro : List Row} {wl wr : Nat} {regs : Tup}
    (hs : Sides q proj cl cr names l r) (hj : joinVars q l r = []) (hl : Rows (sols db q l) cl ol lo) (hr : Rows (sols db q r) cr orr ro) :
    Rows (both (sols db q l) (sols db q r)) names none (output names cl cr (Algebra.cartProd false false wl wr regs lo ro)) := by
  rw [Algebra.C76_product]
  have hsel : Trident.Sparql.Spec.product lo ro = select [] cl cr (Trident.Sparql.Spec.product lo ro) :=
    (List.filter_eq_self.2 fun _ _ => rfl).symm
  rw [hsel]
  refine ⟨output_pos (product_pos hl.pos hr.pos), ?_, fun y _ e => by cases e⟩
  refine join_rows (p := fun _ _ => true) hl.perm hr.perm (product_perm lo ro) (fun x hx => nomatch hx) (hs.names (fun _ => Iff.rfl) (fun _ => Iff.rfl)) ?_
  intro c hc d hd
  rw [fits_pair hc hd, hj]; rfl

/-! ## Plans -/

/-- The patterns and conditions that are considered. -/
structure Fine (q : Query) : Prop where
  nodup : ∀ n ∈ q.nodes, n.vars.Nodup
  congr : ∀ f ∈ q.filters, ∀ g g' : Nat → Option Nat, (∀ x ∈ f.vars, g x = g' x) → f.holds g = f.holds g'

theorem Fine.node {q : Query} (h : Fine q) {i : Nat} (hi : i < q.nodes.length) : (q.node i).vars.Nodup := by
  apply h.nodup
  unfold Query.node
  rw [List.getElem?_eq_getElem hi]
  exact List.getElem_mem hi

theorem Fine.filt {q : Query} (h : Fine q) {j : Nat} (hj : j < q.filters.length) : ∀ g g' : Nat → Option Nat, (∀ x ∈ (q.filt j).vars, g x = g' x) → (q.filt j).holds g = (q.filt j).holds g' := by
  apply h.congr
  unfold Query.filt
  rw [List.getElem?_eq_getElem hj]
  exact List.getElem_mem hj

theorem sides_of {q : Query} {proj : List Nat} {l r : Plan} {names : List Nat} (hl : WF q l) (hr : WF q r) (hd : ∀ i ∈ l.leaves, i ∉ r.leaves)
    (hU : ∀ x ∈ proj, ∀ i ∈ l.leaves ++ r.leaves, x ∈ (q.node i).vars → used q i x = true) (hn : ∀ x, x ∈ names ↔ x ∈ proj ∧ x ∈ l.vars q ++ r.vars q) :
    Sides q proj (cols q (proj ++ joinVars q l r) l) (cols q (proj ++ joinVars q l r) r) names l r :=
  let u := used_join hl hr hd hU
  ⟨mem_cols hl u.1, mem_cols hr u.2, fun x hx => (hn x).1 hx⟩

theorem used_filt {q : Query} {proj : List Nat} {j : Nat} {p : Plan} (hj : j < q.filters.length) (hU : Used q proj (.filter j p)) : Used q (proj ++ (q.filt j).vars) p := by
  intro y hy i hi hv
  rcases List.mem_append.1 hy with h | h
  · exact hU y h i hi hv
  · exact used_filter hj h

theorem sides_cart {q : Query} {proj : List Nat} {l r : Plan} {names : List Nat} (hl : WF q l) (hr : WF q r) (hj : joinVars q l r = [])
    (hU : ∀ x ∈ proj, ∀ i ∈ l.leaves ++ r.leaves, x ∈ (q.node i).vars → used q i x = true) (hn : ∀ x, x ∈ names ↔ x ∈ proj ∧ x ∈ l.vars q ++ r.vars q) :
    Sides q proj (cols q proj l) (cols q proj r) names l r := by
  refine ⟨?_, ?_, fun x hx => (hn x).1 hx⟩
  · rw [hj, List.append_nil]
    exact mem_cols hl fun x hx i hi => hU x hx i (List.mem_append_left _ hi)
  · rw [hj, List.append_nil]
    exact mem_cols hr fun x hx i hi => hU x hx i (List.mem_append_right _ hi)

theorem exec_rows {db : List Triple} {q : Query} (hq : Fine q) (hdb : ∀ t ∈ db, t.1 < 2 ^ 64 ∧ t.2.1 < 2 ^ 64 ∧ t.2.2 < 2 ^ 64) {proj : List Nat} {p : Plan} {rows : List Row}
    (h : Exec db q proj p rows) : WF q p → Used q proj p → Rows (sols db q p) (cols q proj p) (p.ordering q) rows := by
  induction h with
  | scan _ h =>
    intro hw hU
    have h1 := hw.1
    subst h1
    exact scan_rows (hq.node hw.2.1) hw h
  | @filter proj j p rows _ _ ih =>
    intro hw hU
    have hU' := used_filt hw.1 hU
    refine filter_rows (q.filt j) (hq.filt hw.1) (ih hw.2 hU') ?_ ?_
    · intro x hx
      exact (List.mem_filter.1 hx).1
    · intro c hc x hx
      rw [(mem_sols hc).2, mem_cols hw.2 hU']
      exact ⟨fun h => h.2, fun h => ⟨List.mem_append_right _ hx, h⟩⟩
  | @nest proj l r lo ro out _ _ _ h ih1 ih2 =>
    intro hw hU
    have hU' := used_join hw.1 hw.2.1 hw.2.2 hU
    exact nest_rows (sides_of hw.1 hw.2.1 hw.2.2 hU (mem_cols hw hU)) (ih1 hw.1 hU'.1) (ih2 hw.2.1 hU'.2) (fun x hx => ordering_vars hw.1 hx) h
  | @merge proj x l r lo ro out e he1 he2 _ _ _ h ih1 ih2 =>
    intro hw hU
    have hU' := used_join hw.1 hw.2.1 hw.2.2.1 hU
    have r1 := ih1 hw.1 hU'.1
    have r2 := ih2 hw.2.1 hU'.2
    rw [hw.2.2.2.1] at r1
    rw [hw.2.2.2.2] at r2
    exact merge_rows he1 he2 (sides_of hw.1 hw.2.1 hw.2.2.1 hU (mem_cols hw hU)) r1 r2 (mem_joinVars.2 ⟨ordering_vars hw.1 hw.2.2.2.1, ordering_vars hw.2.1 hw.2.2.2.2⟩) h
  | @hash proj l r lo ro out x wl wr reg0 hx _ _ _ h ih1 ih2 =>
    intro hw hU
    have hU' := used_join hw.1 hw.2.1 hw.2.2.1 hU
    exact hash_rows hdb (sides_of hw.1 hw.2.1 hw.2.2.1 hU (mem_cols hw hU)) (ih1 hw.1 hU'.1) (ih2 hw.2.1 hU'.2) (List.mem_of_mem_head? hx) h
  | @cart proj l r lo ro wl wr regs _ _ ih1 ih2 =>
    intro hw hU
    exact cart_rows (sides_cart hw.1 hw.2.1 hw.2.2.2 hU (mem_cols hw hU)) hw.2.2.2 (ih1 hw.1 fun x hx i hi => hU x hx i (List.mem_append_left _ hi))
      (ih2 hw.2.1 fun x hx i hi => hU x hx i (List.mem_append_right _ hi))

/-- A scan can return its rows in each order of a variable. -/
theorem exists_scan (db : List Triple) (q : Query) (k : Kind) (o : Ord) (free : Bool) (i : Nat) (names : List Nat) : ∃ rows, ScanRows db q k o free i names rows := by
  let base : List Row := ((db.filter (matchesSlots (q.node i) (scanSlots k o))).map fun d => names.map (slotValue (q.node i) (scanSlots k o) d)).map fun t => (1, t)
  have hbag : ∀ (l : List Tup) (t : Tup), bag (l.map fun t => ((1, t) : Row)) t = l.count t := by
    intro l t
    induction l with
    | nil => rfl
    | cons a l ih => rw [List.map_cons, bag_cons, ih, List.count_cons]; by_cases h : a = t <;> simp [h] <;> omega
  have key : ∀ le : Row → Row → Bool, (∀ a b, le a b = true ∨ le b a = true) → (∀ a b c, le a b = true → le b c = true → le a c = true) → ∃ rows : List Row, (∀ r ∈ rows, r.1 ≠ 0) ∧ (∀ t, bag rows t = bag base t) ∧ rows.Pairwise fun a b => le a b = true := by
    intro le ht htr
    refine ⟨base.mergeSort le, ?_, ?_, ?_⟩
    · intro r hr
      rw [List.mem_mergeSort] at hr
      obtain ⟨t, _, rfl⟩ := List.mem_map.1 hr
      exact Nat.one_ne_zero
    · intro t
      rw [← count_expand, ← count_expand]
      exact ((List.mergeSort_perm base le).flatMap_right _).count_eq t
    · exact List.pairwise_mergeSort htr (fun a b => by simpa using ht a b) base
  obtain ⟨rows, h1, h2, h3⟩ := key (fun a b => match scanOrdering q k o free i with | some x => decide (look names a.2 x ≤ look names b.2 x) | none => true)
    (by intro a b; cases scanOrdering q k o free i <;> simp <;> omega) (by intro a b c; cases scanOrdering q k o free i <;> simp <;> omega)
  refine ⟨rows, h1, fun t => by rw [h2]; exact hbag _ t, ?_⟩
  intro x _ hx
  exact h3.imp fun {a b} h => by simpa [hx] using h

/-- The variables of the filters of a plan are in the patterns below them, or in no pattern. -/
def Whole (q : Query) : Plan → Prop
  | .scan .. => True
  | .filter j p => (∀ x ∈ (q.filt j).vars, x ∈ p.vars q ∨ ∀ n ∈ q.nodes, x ∉ n.vars) ∧ Whole q p
  | .nest l r => Whole q l ∧ Whole q r
  | .merge _ l r => Whole q l ∧ Whole q r
  | .hash l r => Whole q l ∧ Whole q r
  | .cart l r => Whole q l ∧ Whole q r

theorem node_mem {q : Query} {i : Nat} (hi : i < q.nodes.length) : q.node i ∈ q.nodes := by
  unfold Query.node
  rw [List.getElem?_eq_getElem hi]
  exact List.getElem_mem hi

theorem filt_mem {q : Query} {j : Nat} (hj : j < q.filters.length) : q.filt j ∈ q.filters := by
  unfold Query.filt
  rw [List.getElem?_eq_getElem hj]
  exact List.getElem_mem hj

theorem vars_elems {n : Node} {x : Nat} : x ∈ n.vars ↔ PElem.var x ∈ [n.1, n.2.1, n.2.2] := by
  obtain ⟨a, b, c⟩ := n
  cases a <;> cases b <;> cases c <;> simp [Node.vars, Node.varAt, Node.slot, eq_comm]

/-- The values of a solution are those of single patterns. -/
theorem sols_seen {db : List Triple} {q : Query} {p : Plan} {x v : Nat} : ∀ {c : Choice}, WF q p → c ∈ sols db q p → value c x = some v → Spec.Seen db q.nodes x v := by
  have hboth : ∀ {A B : List Choice} {c : Choice}, (∀ {c}, c ∈ A → value c x = some v → Spec.Seen db q.nodes x v) → (∀ {c}, c ∈ B → value c x = some v → Spec.Seen db q.nodes x v) →
      c ∈ both A B → value c x = some v → Spec.Seen db q.nodes x v := by
    intro A B c h1 h2 hc hv
    obtain ⟨_, a, ha, b, hb, rfl⟩ := mem_both hc
    rw [value_append] at hv
    match hva : value a x with
    | some w => rw [hva] at hv; cases hv; exact h1 ha hva
    | none => rw [hva] at hv; exact h2 hb hv
  induction p with
  | scan k o f i =>
    intro c hw hc hv
    simp only [sols, List.mem_filter, List.mem_map] at hc
    obtain ⟨⟨t, ht, rfl⟩, hf⟩ := hc
    exact ⟨_, node_mem hw.2.1, t, ht, hf, hv⟩
  | filter j p ih => intro c hw hc; exact ih hw.2 (List.mem_filter.1 hc).1
  | nest l r ih1 ih2 => intro c hw hc; exact hboth (ih1 hw.1) (ih2 hw.2.1) hc
  | merge x l r ih1 ih2 => intro c hw hc; exact hboth (ih1 hw.1) (ih2 hw.2.1) hc
  | hash l r ih1 ih2 => intro c hw hc; exact hboth (ih1 hw.1) (ih2 hw.2.1) hc
  | cart l r ih1 ih2 => intro c hw hc; exact hboth (ih1 hw.1) (ih2 hw.2.1) hc

theorem elsewhere_of {q : Query} {i x : Nat} (h : Spec.Elsewhere q i x) : used q i x = true := by
  rcases h with h | h | ⟨f, hf, h⟩ | ⟨j, n, hj, hn, h⟩
  · unfold used; simp [h]
  · unfold used; simp [h]
  · obtain ⟨k, hk, rfl⟩ := List.mem_iff_getElem.1 hf
    refine used_filter hk ?_
    unfold Query.filt
    rw [List.getElem?_eq_getElem hk]; exact h
  · have hlt : j < q.nodes.length := (List.getElem?_eq_some_iff.1 hn).1
    refine used_node hj hlt (vars_elems.2 ?_)
    unfold Query.node
    rw [hn]; exact h

theorem elsewhere_iff {q : Query} {i x : Nat} : used q i x = true ↔ Spec.Elsewhere q i x := by
  refine ⟨fun h => ?_, elsewhere_of⟩
  unfold used at h
  simp only [Bool.or_eq_true, List.contains_iff_mem, List.any_eq_true, List.mem_range, Bool.and_eq_true, bne_iff_ne] at h
  rcases h with ((h | h) | ⟨f, hf, h⟩) | ⟨j, hj, hji, h⟩
  · exact .inl h
  · exact .inr (.inl h)
  · exact .inr (.inr (.inl ⟨f, hf, h⟩))
  · exact .inr (.inr (.inr ⟨j, q.node j, hji, by unfold Query.node; rw [List.getElem?_eq_getElem hj]; rfl, vars_elems.1 h⟩))

theorem unusedAt_var {q : Query} {i s : Nat} (h : unusedAt q i s = true) : ∃ x, (q.node i).slot s = .var x ∧ used q i x = false := by
  unfold unusedAt Node.varAt at h
  cases hs : (q.node i).slot s with
  | var x => rw [hs] at h; exact ⟨x, rfl, by simpa using h⟩
  | const k => rw [hs] at h; cases h

/-- The scans can be started. -/
theorem starts_of {q : Query} {k : Kind} {o : Ord} {i : Nat} (hn : (q.node i).vars.Nodup) (ht : Spec.Tied q) (hw : WF q (.scan k o false i)) : Starts q k o false i := by
  rintro rfl
  refine ⟨rfl, fun he => ?_⟩
  have hi : q.nodes[i]? = some (q.node i) := by unfold Query.node; rw [List.getElem?_eq_getElem hw.2.1]; rfl
  have key : ∀ s0 s1 s2, s1 < s2 → s1 < 3 → s2 < 3 → s0 < 3 → (q.node i).varAt s0 = none → unusedAt q i s1 = true → unusedAt q i s2 = true → False := by
    intro s0 s1 s2 h12 h1 h2 h0 hc u1 u2
    obtain ⟨x, hx, ux⟩ := unusedAt_var u1
    obtain ⟨y, hy, uy⟩ := unusedAt_var u2
    have hmem : ∀ s, s < 3 → (q.node i).slot s ∈ [(q.node i).1, (q.node i).2.1, (q.node i).2.2] := fun s hs => by
      match s, hs with
      | 0, _ => simp [Node.slot]
      | 1, _ => simp [Node.slot]
      | 2, _ => simp [Node.slot]
    have hk : ∃ k, (q.node i).slot s0 = .const k := by
      unfold Node.varAt at hc
      cases hs : (q.node i).slot s0 with
      | var x => rw [hs] at hc; cases hc
      | const k => exact ⟨k, rfl⟩
    obtain ⟨k, hk⟩ := hk
    have hxy : x ≠ y := by
      rintro rfl
      have hv1 : (q.node i).varAt s1 = some x := by unfold Node.varAt; rw [hx]
      have hv2 : (q.node i).varAt s2 = some x := by unfold Node.varAt; rw [hy]
      have hs : s1 = 0 ∧ s2 = 1 ∨ s1 = 0 ∧ s2 = 2 ∨ s1 = 1 ∧ s2 = 2 := by omega
      unfold Node.vars at hn
      rcases hs with ⟨rfl, rfl⟩ | ⟨rfl, rfl⟩ | ⟨rfl, rfl⟩
      all_goals
        simp only [List.filterMap_cons, hv1, hv2, List.filterMap_nil] at hn
        first
        | (simp at hn; done)
        | (cases h : (q.node i).varAt 1 <;> simp [h] at hn; done)
        | (cases h : (q.node i).varAt 0 <;> simp [h] at hn; done)
    rcases ht i _ hi ⟨k, hk ▸ hmem s0 h0⟩ x y hxy (hx ▸ hmem s1 h1) (hy ▸ hmem s2 h2) with h | h
    · rw [elsewhere_of h] at ux; cases ux
    · rw [elsewhere_of h] at uy; cases uy
  have hs := hw.2.2.1
  cases o <;> simp only [scanSlots, Ord.slots, Kind.width, List.take, List.filterMap_cons, List.filterMap_nil, List.mem_cons, List.not_mem_nil, or_false] at he hs
  · exact key 0 1 2 (by omega) (by omega) (by omega) (by omega) (by split at he <;> simp_all) (hs 1 (by omega) (by omega)) (hs 2 (by omega) (by omega))
  · exact key 0 1 2 (by omega) (by omega) (by omega) (by omega) (by split at he <;> simp_all) (hs 1 (by omega) (by omega)) (hs 2 (by omega) (by omega))
  · exact key 1 0 2 (by omega) (by omega) (by omega) (by omega) (by split at he <;> simp_all) (hs 0 (by omega) (by omega)) (hs 2 (by omega) (by omega))
  · exact key 1 0 2 (by omega) (by omega) (by omega) (by omega) (by split at he <;> simp_all) (hs 0 (by omega) (by omega)) (hs 2 (by omega) (by omega))
  · exact key 2 0 1 (by omega) (by omega) (by omega) (by omega) (by split at he <;> simp_all) (hs 0 (by omega) (by omega)) (hs 1 (by omega) (by omega))
  · exact key 2 0 1 (by omega) (by omega) (by omega) (by omega) (by split at he <;> simp_all) (hs 0 (by omega) (by omega)) (hs 1 (by omega) (by omega))

/-- The scans of a plan that is executed are started. -/
theorem exec_starts {db : List Triple} {q : Query} {proj : List Nat} {p : Plan} {rows : List Row} (h : Exec db q proj p rows) :
    WF q p → ∀ i ∈ p.leaves, ∃ k o, WF q (.scan k o false i) ∧ Starts q k o false i := by
  induction h with
  | @scan proj k o free i rows h _ =>
    intro hw j hj
    rw [Plan.leaves, List.mem_singleton] at hj
    subst hj
    have h1 := hw.1
    subst h1
    exact ⟨k, o, hw, h⟩
  | filter _ _ ih => intro hw; exact ih hw.2
  | nest _ _ _ _ ih1 ih2 => intro hw i hi; exact (List.mem_append.1 hi).elim (ih1 hw.1 i) (ih2 hw.2.1 i)
  | merge _ _ _ _ _ _ _ ih1 ih2 => intro hw i hi; exact (List.mem_append.1 hi).elim (ih1 hw.1 i) (ih2 hw.2.1 i)
  | hash _ _ _ _ _ _ _ _ ih1 ih2 => intro hw i hi; exact (List.mem_append.1 hi).elim (ih1 hw.1 i) (ih2 hw.2.1 i)
  | cart _ _ _ _ _ ih1 ih2 => intro hw i hi; exact (List.mem_append.1 hi).elim (ih1 hw.1 i) (ih2 hw.2.1 i)

theorem elem_slot {n : Node} {e : PElem Nat} (h : e ∈ [n.1, n.2.1, n.2.2]) : ∃ s, s < 3 ∧ n.slot s = e := by
  simp only [List.mem_cons, List.not_mem_nil, or_false] at h
  rcases h with rfl | rfl | rfl
  · exact ⟨0, by omega, rfl⟩
  · exact ⟨1, by omega, rfl⟩
  · exact ⟨2, by omega, rfl⟩

/-- A scan of a pattern with a constant and two variables that are nowhere else cannot be started. -/
theorem not_starts {q : Query} {k : Kind} {o : Ord} {i : Nat} (hw : WF q (.scan k o false i)) {c x y : Nat} (hc : .const c ∈ [(q.node i).1, (q.node i).2.1, (q.node i).2.2]) (hxy : x ≠ y)
    (hx : .var x ∈ [(q.node i).1, (q.node i).2.1, (q.node i).2.2]) (hy : .var y ∈ [(q.node i).1, (q.node i).2.1, (q.node i).2.2])
    (ux : used q i x = false) (uy : used q i y = false) : ¬ Starts q k o false i := by
  obtain ⟨s, hs, es⟩ := elem_slot hc
  obtain ⟨a, ha, ea⟩ := elem_slot hx
  obtain ⟨b, hb, eb⟩ := elem_slot hy
  have uc : unusedAt q i s = false := by unfold unusedAt Node.varAt; rw [es]
  have ua : unusedAt q i a = true := by unfold unusedAt Node.varAt; rw [ea]; simp [ux]
  have ub : unusedAt q i b = true := by unfold unusedAt Node.varAt; rw [eb]; simp [uy]
  have hab : a ≠ b := by rintro rfl; rw [ea] at eb; cases eb; exact hxy rfl
  have h2 : (unusedAt q i 0).toNat + (unusedAt q i 1).toNat + (unusedAt q i 2).toNat ≥ 2 := by
    have hs : (a = 0 ∧ b = 1 ∨ a = 0 ∧ b = 2 ∨ a = 1 ∧ b = 2) ∨ (b = 0 ∧ a = 1 ∨ b = 0 ∧ a = 2 ∨ b = 1 ∧ a = 2) := by omega
    rcases hs with (⟨rfl, rfl⟩ | ⟨rfl, rfl⟩ | ⟨rfl, rfl⟩) | (⟨rfl, rfl⟩ | ⟨rfl, rfl⟩ | ⟨rfl, rfl⟩) <;> simp [ua, ub] <;> omega
  have hk := hw.2.2.2 h2
  subst hk
  intro hst
  refine (hst rfl).2 ?_
  have hm : s ∈ scanSlots .fully o := Classical.byContradiction fun h => by
    have := hw.2.2.1 s h hs
    rw [uc] at this; cases this
  have hv : (q.node i).varAt s = none := by unfold Node.varAt; rw [es]
  cases o <;> simp only [scanSlots, Ord.slots, Kind.width, List.take, List.mem_singleton] at hm <;> subst hm <;>
    simp only [scanSlots, Ord.slots, Kind.width, List.take, List.filterMap_cons, List.filterMap_nil, hv]

/-- The scans of the patterns that can be started return rows, and they are those of the triples. -/
def ScansOf (S : Kind → Ord → Bool → Nat → List Nat → List Row → Prop) (db : List Triple) (q : Query) : Prop :=
  ∀ k o i, WF q (.scan k o false i) → Starts q k o false i → ∀ names, (∃ rows, S k o false i names rows) ∧ ∀ rows, S k o false i names rows → ScanRows db q k o false i names rows

theorem exec_mono {S : Kind → Ord → Bool → Nat → List Nat → List Row → Prop} {db : List Triple} {q : Query} (hS : ScansOf S db q) {proj : List Nat} {p : Plan} {rows : List Row}
    (h : ExecOn S q proj p rows) : WF q p → Exec db q proj p rows := by
  induction h with
  | @scan proj k o free i rows h hs =>
    intro hw
    have h1 := hw.1
    subst h1
    exact .scan h ((hS k o i hw h _).2 _ hs)
  | filter _ h ih => intro hw; exact .filter (ih hw.2) h
  | nest _ _ h h' ih1 ih2 => intro hw; exact .nest (ih1 hw.1) (ih2 hw.2.1) h h'
  | merge e h1 h2 _ _ h h' ih1 ih2 => intro hw; exact .merge e h1 h2 (ih1 hw.1) (ih2 hw.2.1) h h'
  | hash wl wr reg0 h1 _ _ h h' ih1 ih2 => intro hw; exact .hash wl wr reg0 h1 (ih1 hw.1) (ih2 hw.2.1) h h'
  | cart wl wr regs _ _ ih1 ih2 => intro hw; exact .cart wl wr regs (ih1 hw.1) (ih2 hw.2.1)

/-- The plan can be executed. -/
theorem exec_exists_on {S : Kind → Ord → Bool → Nat → List Nat → List Row → Prop} {db : List Triple} {q : Query} (hS : ScansOf S db q) (hq : Fine q) (ht : Spec.Tied q) (hdb : ∀ t ∈ db, t.1 < 2 ^ 64 ∧ t.2.1 < 2 ^ 64 ∧ t.2.2 < 2 ^ 64)
    (hsafe : ∀ f ∈ q.filters, Spec.Safe db q.nodes f) {p : Plan} :
    ∀ {proj : List Nat}, WF q p → Whole q p → Used q proj p → ∃ rows, ExecOn S q proj p rows := by
  induction p with
  | scan k o f i =>
    intro proj hw hW hU
    have h1 := hw.1
    subst h1
    have hst := starts_of (hq.1 _ (node_mem hw.2.1)) ht hw
    obtain ⟨rows, h⟩ := (hS k o i hw hst (cols q proj (.scan k o false i))).1
    exact ⟨rows, .scan hst h⟩
  | filter j p ih =>
    intro proj hw hW hU
    have hU' := used_filt hw.1 hU
    obtain ⟨rows, h⟩ := ih hw.2 hW.2 hU'
    refine ⟨_, .filter h fun r hr => hsafe _ (filt_mem hw.1) _ fun x hx => ?_⟩
    have hrows := exec_rows hq hdb (exec_mono hS h hw.2) hw.2 hU'
    obtain ⟨c, hc, he⟩ := Rows.shape hrows.pos hrows.perm hr
    have hcol := mem_cols hw.2 hU' x
    by_cases hm : x ∈ cols q (proj ++ (q.filt j).vars) p
    · rw [if_pos (by simpa using hm), he, look_map' hm]
      refine ⟨fun v hv => ?_, fun h => by cases h⟩
      cases hv
      exact sols_seen hw.2 hc (value_eq_val ((mem_sols hc).2 ▸ (hcol.1 hm).2))
    · rw [if_neg (by simpa using hm)]
      refine ⟨nofun, fun _ n hn hv => ?_⟩
      rcases hW.1 x hx with h1 | h1
      · exact hm (hcol.2 ⟨List.mem_append_right _ hx, h1⟩)
      · exact h1 n hn (vars_elems.2 hv)
  | nest l r ih1 ih2 =>
    intro proj hw hW hU
    have hU' := used_join hw.1 hw.2.1 hw.2.2 hU
    obtain ⟨lo, h1⟩ := ih1 hw.1 hW.1 hU'.1
    obtain ⟨ro, h2⟩ := ih2 hw.2.1 hW.2 hU'.2
    have hs := sides_of hw.1 hw.2.1 hw.2.2 hU (mem_cols hw hU)
    exact ⟨_, .nest h1 h2 (fun x hx => hs.join hx) (Algebra.C76_nested_loop lo ro)⟩
  | merge x l r ih1 ih2 =>
    intro proj hw hW hU
    have hU' := used_join hw.1 hw.2.1 hw.2.2.1 hU
    obtain ⟨lo, h1⟩ := ih1 hw.1 hW.1 hU'.1
    obtain ⟨ro, h2⟩ := ih2 hw.2.1 hW.2 hU'.2
    have hs := sides_of hw.1 hw.2.1 hw.2.2.1 hU (mem_cols hw hU)
    have hx : x ∈ joinVars q l r := mem_joinVars.2 ⟨ordering_vars hw.1 hw.2.2.2.1, ordering_vars hw.2.1 hw.2.2.2.2⟩
    have r1 := exec_rows hq hdb (exec_mono hS h1 hw.1) hw.1 hU'.1
    have r2 := exec_rows hq hdb (exec_mono hS h2 hw.2.1) hw.2.1 hU'.2
    rw [hw.2.2.2.1] at r1
    rw [hw.2.2.2.2] at r2
    obtain ⟨out, h, _⟩ := Merge.join_good ⟨false, false, 0, 0, [], [], fun _ => false, fun _ => false⟩ rfl rfl _ _ (pick_front (x := x) r1) (pick_front (x := x) r2)
      (pick_sorted r1 (hs.join hx).1) (pick_sorted r2 (hs.join hx).2)
    exact ⟨_, .merge _ rfl rfl h1 h2 (fun y hy => hs.join ((List.mem_cons.1 hy).elim (fun e => e ▸ hx) id)) h⟩
  | hash l r ih1 ih2 =>
    intro proj hw hW hU
    have hU' := used_join hw.1 hw.2.1 hw.2.2.1 hU
    obtain ⟨lo, h1⟩ := ih1 hw.1 hW.1 hU'.1
    obtain ⟨ro, h2⟩ := ih2 hw.2.1 hW.2 hU'.2
    have hs := sides_of hw.1 hw.2.1 hw.2.2.1 hU (mem_cols hw hU)
    have r1 := exec_rows hq hdb (exec_mono hS h1 hw.1) hw.1 hU'.1
    have r2 := exec_rows hq hdb (exec_mono hS h2 hw.2.1) hw.2.1 hU'.2
    match hj : joinVars q l r, hw.2.2.2 with
    | x :: js, _ =>
      have hx : x ∈ joinVars q l r := by rw [hj]; simp
      obtain ⟨out, h, _⟩ := Hash.C69_join (fun _ => true) 0 0 0 (pick _ (front x _) lo) (pick _ (front x _) ro) (fun r hr => (pick_front r1 r hr).1) (fun r hr => (pick_front r2 r hr).1)
        (hash_bits hdb r1 (fun y hy => ((hs.left y).1 hy).2) (hs.join hx).1) (fun _ _ h => by cases h)
      exact ⟨_, .hash 0 0 0 (by rw [hj]; rfl) h1 h2 (fun y hy => hs.join hy) h⟩
  | cart l r ih1 ih2 =>
    intro proj hw hW hU
    obtain ⟨lo, h1⟩ := ih1 (proj := proj) hw.1 hW.1 fun x hx i hi => hU x hx i (List.mem_append_left _ hi)
    obtain ⟨ro, h2⟩ := ih2 (proj := proj) hw.2.1 hW.2 fun x hx i hi => hU x hx i (List.mem_append_right _ hi)
    exact ⟨_, .cart 0 0 [] h1 h2⟩

theorem scansOf_rows {db : List Triple} {q : Query} : ScansOf (ScanRows db q) db q := fun k o i _ _ names => ⟨exists_scan db q k o false i names, fun _ h => h⟩

theorem exec_exists {db : List Triple} {q : Query} (hq : Fine q) (ht : Spec.Tied q) (hdb : ∀ t ∈ db, t.1 < 2 ^ 64 ∧ t.2.1 < 2 ^ 64 ∧ t.2.2 < 2 ^ 64)
    (hsafe : ∀ f ∈ q.filters, Spec.Safe db q.nodes f) {p : Plan} {proj : List Nat} (hw : WF q p) (hW : Whole q p) (hU : Used q proj p) : ∃ rows, Exec db q proj p rows :=
  exec_exists_on scansOf_rows hq ht hdb hsafe hw hW hU

end Trident.Sparql.PlanGen
