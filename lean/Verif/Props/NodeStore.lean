import Verif.NodeStore.IndexProofs
/-! # C43: what is written for a node of a tree is what is read back -/
namespace Trident.NodeStore

/-! ## Specification -/

/-- The content that was last written for the node, and the kind with which it was first written. -/
def written (h : List Put) (id : Nat) : Option (Bool × List UInt8) :=
  match h.find? (fun p => p.id == id), (h.filter fun p => p.id == id).getLast? with
  | some first, some last => some (first.children, last.buf.take last.n)
  | _, _ => none

/-- The nodes are numbered from 0, without gaps. -/
def Dense (h : List Put) (k : Nat) : Prop := ∀ id, (∃ p ∈ h, p.id = id) ↔ id < k

/-- The numbers that are kept in 32 bits fit. -/
structure InBounds (s : Store) (k : Nat) : Prop where
  nodes : 30 * k + 4 < 2 ^ 31
  sizes : ∀ d ∈ s.data, d.length < 2 ^ 31
  files : s.data.length ≤ 2 ^ 15

/-! ## Histories -/

def stepW (id : Nat) (o : Option (Bool × List UInt8)) (p : Put) : Option (Bool × List UInt8) :=
  if p.id = id then some (o.elim p.children (·.1), p.buf.take p.n) else o

theorem foldl_stepW (id : Nat) : ∀ (h : List Put) (o : Option (Bool × List UInt8)), h.foldl (stepW id) o =
    match (h.filter fun p => p.id == id).getLast? with
    | none => o
    | some last => some ((o.map (·.1)).getD (((h.find? fun p => p.id == id).map Put.children).getD false), last.buf.take last.n)
  | [], o => rfl
  | p :: h, o => by
    rw [List.foldl_cons, foldl_stepW id h]
    by_cases hp : p.id = id
    · have hb : (p.id == id) = true := by simpa using hp
      rw [List.filter_cons, if_pos hb, List.find?_cons, hb]
      simp only [stepW, if_pos hp]
      cases hl : (h.filter fun p => p.id == id).getLast? with
      | none =>
        rw [List.getLast?_eq_none_iff] at hl
        rw [hl]
        cases o <;> rfl
      | some last =>
        rw [List.getLast?_cons, hl]
        cases o <;> rfl
    · have hb : (p.id == id) = false := by simpa using hp
      rw [List.filter_cons, if_neg (by simp [hb]), List.find?_cons, hb]
      simp only [stepW, if_neg hp]

theorem written_eq (h : List Put) (id : Nat) : written h id = h.foldl (stepW id) none := by
  rw [foldl_stepW, written]
  cases hl : (h.filter fun p => p.id == id).getLast? with
  | none => cases h.find? (fun p => p.id == id) <;> rfl
  | some last =>
    cases hf : h.find? (fun p => p.id == id) with
    | none =>
      have := List.find?_eq_none.1 hf last (List.mem_filter.1 (List.mem_of_getLast? hl)).1
      exact absurd (List.mem_filter.1 (List.mem_of_getLast? hl)).2 this
    | some q => rfl

theorem find_eq (V1 V2 : List (Nat × Bool × List UInt8)) (x : Nat) (c c' : Bool × List UInt8) (hn : x ∉ V1.map (·.1)) (id : Nat) :
    ((V1 ++ (x, c) :: V2).find? fun v => v.1 == id) = if id = x then some (x, c) else ((V1 ++ (x, c') :: V2).find? fun v => v.1 == id) := by
  have h1 : id = x → (V1.find? fun v => v.1 == id) = none := by
    rintro rfl
    rw [List.find?_eq_none]
    intro v hv he
    exact hn (List.mem_map.2 ⟨v, hv, by simpa using he⟩)
  by_cases hx : id = x
  · rw [if_pos hx, List.find?_append, h1 hx]
    simp [hx]
  · rw [if_neg hx, List.find?_append, List.find?_append, List.find?_cons, List.find?_cons]
    have : (x == id) = false := by simp [Ne.symm hx]
    simp only [this]

theorem put_step {nodeMin fileMax : Nat} (hM : 0 < fileMax) {s s' : Store} {A : List (List NB)} {p : Put} (h : Rep s A)
    (hp : s.put nodeMin fileMax p = some s') : ∃ A', Rep s' A' ∧ ∀ id, s'.get id = stepW id (s.get id) p := by
  cases hf : s.find p.id with
  | some cn =>
    obtain ⟨A', V1, V2, b, hr, e1, e2, e3, -⟩ := put_old h hf hp
    refine ⟨A', hr, fun id => ?_⟩
    rw [get_view hr, get_view h, e3, find_eq V1 V2 p.id _ (cn.children, b) e2 id, ← e1]
    unfold stepW
    by_cases hid : id = p.id
    · subst hid
      rw [if_pos rfl, if_pos rfl, e1, find_eq V1 V2 p.id (cn.children, b) (cn.children, b) e2 p.id, if_pos rfl]
      rfl
    · rw [if_neg hid, if_neg (Ne.symm hid)]
  | none =>
    obtain ⟨A', hr, e, -⟩ := put_new hM h hf hp
    refine ⟨A', hr, fun id => ?_⟩
    have hnone : s.get p.id = none := by unfold Store.get; rw [hf]; rfl
    have hv := get_view h id
    rw [get_view hr, e, List.find?_append]
    unfold stepW
    by_cases hid : p.id = id
    · rw [if_pos hid, ← hid, hnone]
      rw [← hid, hnone] at hv
      have : (view A).find? (fun v => v.1 == p.id) = none := by
        cases hq : (view A).find? (fun v => v.1 == p.id) with
        | none => rfl
        | some v => rw [hq] at hv; cases hv
      rw [this]
      simp
    · rw [if_neg hid, hv]
      simp [hid]

theorem puts_spec {nodeMin fileMax : Nat} (hM : 0 < fileMax) : ∀ {h : List Put} {s s' : Store} {A : List (List NB)}, Rep s A →
    s.puts nodeMin fileMax h = some s' → ∃ A', Rep s' A' ∧ ∀ id, s'.get id = h.foldl (stepW id) (s.get id)
  | [], s, s', A, hr, hp => by cases hp; exact ⟨A, hr, fun id => rfl⟩
  | p :: h, s, s', A, hr, hp => by
    simp only [Store.puts] at hp
    cases h1 : s.put nodeMin fileMax p with
    | none => rw [h1] at hp; cases hp
    | some s1 =>
      rw [h1] at hp
      obtain ⟨A1, hr1, g1⟩ := put_step hM hr h1
      obtain ⟨A2, hr2, g2⟩ := puts_spec hM hr1 hp
      exact ⟨A2, hr2, fun id => by rw [g2, g1]; rfl⟩

theorem history {nodeMin fileMax : Nat} (hM : 0 < fileMax) {h : List Put} {s : Store} (hp : Store.fresh.puts nodeMin fileMax h = some s) :
    ∃ A, Rep s A ∧ ∀ id, s.get id = written h id := by
  obtain ⟨A, hr, g⟩ := puts_spec hM fresh_rep hp
  exact ⟨A, hr, fun id => by rw [g, written_eq]; rfl⟩

theorem written_some {h : List Put} {id : Nat} : (∃ p ∈ h, p.id = id) ↔ written h id ≠ none := by
  unfold written
  constructor
  · rintro ⟨p, hp, rfl⟩ he
    cases hf : h.find? (fun q => q.id == p.id) with
    | none => exact absurd (List.find?_eq_none.1 hf p hp) (by simp)
    | some q =>
      cases hl : (h.filter fun q => q.id == p.id).getLast? with
      | none =>
        rw [List.getLast?_eq_none_iff] at hl
        have : p ∈ h.filter fun q => q.id == p.id := List.mem_filter.2 ⟨hp, by simp⟩
        rw [hl] at this
        simp at this
      | some l => rw [hf, hl] at he; cases he
  · intro he
    cases hf : h.find? (fun q => q.id == id) with
    | none => rw [hf] at he; exact absurd rfl he
    | some q => exact ⟨q, List.mem_of_find?_eq_some hf, by simpa using List.find?_some hf⟩

theorem get_mem {s : Store} {A : List (List NB)} (h : Rep s A) {x : NB} (hx : x ∈ A.flatten) : s.get x.1.id = some (x.1.children, x.2.take x.1.size) := by
  unfold Store.get
  rw [find_of_mem h hx]
  simp only [Option.bind_some, blockOf_mem h hx, Option.map_some]

theorem dense_ids {h : List Put} {s : Store} {A : List (List NB)} (hr : Rep s A) (hg : ∀ id, s.get id = written h id) {k : Nat} (hd : Dense h k) (i : Nat) :
    i ∈ A.flatten.map (fun x => x.1.id) ↔ i < k := by
  rw [← hd i, written_some, ← hg]
  constructor
  · intro hm
    obtain ⟨x, hx, rfl⟩ := List.mem_map.1 hm
    rw [get_mem hr hx]
    simp
  · intro hne
    cases hf : s.find i with
    | none => exact absurd (by unfold Store.get; rw [hf]; rfl) hne
    | some c =>
      obtain ⟨e, b, hb⟩ := find_mem hr hf
      exact List.mem_map.2 ⟨_, hb, e⟩

/-! ## Theorems -/

/-- C43: for every history of writes of nodes, of any sizes and in any order, that reads no buffer beyond its end, every node reads as what was last
written for it, and a node that was not written does not exist. -/
theorem C43_last_write {nodeMin fileMax : Nat} (hM : 0 < fileMax) {h : List Put} {s : Store} (hp : Store.fresh.puts nodeMin fileMax h = some s) (id : Nat) :
    s.get id = written h id := by
  obtain ⟨A, -, g⟩ := history hM hp
  exact g id

/-- C43: the writes fail only when a buffer is shorter than the node or, for a new node, than the space that is set aside. -/
theorem C43_total {nodeMin fileMax : Nat} {h : List Put} (hb : ∀ p ∈ h, p.n ≤ p.buf.length ∧ nodeMin ≤ p.buf.length) :
    ∃ s, Store.fresh.puts nodeMin fileMax h = some s := by
  generalize Store.fresh = s0
  induction h generalizing s0 with
  | nil => exact ⟨s0, rfl⟩
  | cons p h ih =>
    have hp := hb p (by simp)
    have : ∃ s1, s0.put nodeMin fileMax p = some s1 := by
      unfold Store.put
      cases s0.find p.id with
      | some c => simp only; rw [if_neg (by omega)]; exact ⟨_, rfl⟩
      | none => simp only; rw [if_neg (by omega)]; exact ⟨_, rfl⟩
    obtain ⟨s1, h1⟩ := this
    obtain ⟨s, hs⟩ := ih (fun q hq => hb q (by simp [hq])) s1
    exact ⟨s, by simp only [Store.puts, h1, Option.bind_some]; exact hs⟩

/-- C43: the blocks of two nodes never overlap and lie within their files. -/
theorem C43_disjoint {nodeMin fileMax : Nat} (hM : 0 < fileMax) {h : List Put} {s : Store} (hp : Store.fresh.puts nodeMin fileMax h = some s)
    {i j : Nat} {c d : CNode} (hi : s.find i = some c) (hj : s.find j = some d) (hne : i ≠ j) :
    (c.file = d.file → c.pos + c.avail ≤ d.pos ∨ d.pos + d.avail ≤ c.pos) ∧ c.size ≤ c.avail ∧
      ∃ f, s.data[c.file]? = some f ∧ c.pos + c.avail ≤ f.length := by
  obtain ⟨A, hr, -⟩ := history hM hp
  obtain ⟨ei, b, hb⟩ := find_mem hr hi
  obtain ⟨ej, b', hb'⟩ := find_mem hr hj
  obtain ⟨A1, P1, P2, A2, rfl⟩ := split_of_mem hb
  have hl := hr.laid A1.length (P1 ++ (c, b) :: P2) (by simp)
  have hle := laid_pos_le hl (x := (c, b)) (by simp)
  obtain ⟨l1, e1, e2, e3, e4, l2⟩ := laid_append.1 hl
  refine ⟨fun hfile => ?_, by simp only at e3 e4; omega, bytesOf (P1 ++ (c, b) :: P2), ?_, by simp only at e3 hle; omega⟩
  · obtain ⟨Q, hQ, hdQ⟩ := List.mem_flatten.1 hb'
    obtain ⟨k, hk, hkQ⟩ := List.getElem_of_mem hQ
    have hkl := hr.laid k Q (by rw [List.getElem?_eq_getElem hk, hkQ])
    have file_of : ∀ {P : List NB} {p : Nat} {k : Nat}, Laid k p P → ∀ x ∈ P, x.1.file = k := by
      intro P
      induction P with
      | nil => intro p k _ x hx; simp at hx
      | cons y P ih =>
        intro p k hh x hx
        obtain ⟨f1, f2, f3, f4, f5⟩ := hh
        rcases List.mem_cons.1 hx with rfl | hx
        · exact f1
        · exact ih f5 x hx
    have lo : ∀ {P : List NB} {p : Nat} {k : Nat}, Laid k p P → ∀ x ∈ P, p ≤ x.1.pos := by
      intro P
      induction P with
      | nil => intro p k _ x hx; simp at hx
      | cons y P ih =>
        intro p k hh x hx
        obtain ⟨f1, f2, f3, f4, f5⟩ := hh
        rcases List.mem_cons.1 hx with rfl | hx
        · omega
        · have := ih f5 x hx; omega
    have av : ∀ {P : List NB} {p : Nat} {k : Nat}, Laid k p P → ∀ x ∈ P, x.1.avail = x.2.length := by
      intro P
      induction P with
      | nil => intro p k _ x hx; simp at hx
      | cons y P ih =>
        intro p k hh x hx
        obtain ⟨f1, f2, f3, f4, f5⟩ := hh
        rcases List.mem_cons.1 hx with rfl | hx
        · exact f3
        · exact ih f5 x hx
    have := file_of hkl _ hdQ
    simp only at this e1 e2 e3
    have hkk : k = A1.length := by omega
    subst hkk
    have hQe : Q = P1 ++ (c, b) :: P2 := by rw [← hkQ]; simp
    subst hQe
    rcases List.mem_append.1 hdQ with hd | hd
    · have h1 := laid_pos_le l1 hd
      have h2 := av l1 _ hd
      simp only at h1 h2
      omega
    · rcases List.mem_cons.1 hd with hd | hd
      · cases hd; exact absurd (ei.symm.trans ej) hne
      · have h1 := lo l2 _ hd
        simp only at h1
        omega
  · rw [hr.data]
    simp only at e1
    rw [e1]
    simp

/-- C43: when the store is closed and opened again for reading, every node reads as what was last written for it, whatever the memory of the new
arrays holds. -/
theorem C43_reopened {nodeMin fileMax : Nat} (hM : 0 < fileMax) {h : List Put} {s : Store} (hp : Store.fresh.puts nodeMin fileMax h = some s) {k : Nat}
    (hd : Dense h k) (hb : InBounds s k) (junk : Nat → UInt8) : ∃ idx, s.close junk = some idx ∧ ∀ id, id < k → fetch idx s.data id = written h id := by
  obtain ⟨A, hr, g⟩ := history hM hp
  have hids := dense_ids hr g hd
  obtain ⟨idx, co, h1, -, -, -, -, h6⟩ := close_spec hr junk hb.nodes hids hb.sizes (by have := hb.files; omega)
  refine ⟨idx, h1, fun id hid => ?_⟩
  obtain ⟨x, hx, rfl⟩ := List.mem_map.1 ((hids id).2 hid)
  rw [h6 x hx, ← g, get_mem hr hx]

/-- C43: the compaction of the files changes the content of no node; and the files then hold nothing but the contents. -/
theorem C43_compacted {nodeMin fileMax : Nat} (hM : 0 < fileMax) {h : List Put} {s : Store} (hp : Store.fresh.puts nodeMin fileMax h = some s) {k : Nat}
    (hd : Dense h k) (hk : 0 < k) (hb : InBounds s k) (junk junk' : Nat → UInt8) : ∃ idx idx' data', s.close junk = some idx ∧
      compress idx s.data junk' = some (idx', data') ∧ (∀ id, id < k → fetch idx' data' id = written h id) ∧
      ((data'.map List.length).sum = ((List.range k).map fun id => ((written h id).map fun w => w.2.length).getD 0).sum) := by
  obtain ⟨A, hr, g⟩ := history hM hp
  have hids := dense_ids hr g hd
  obtain ⟨idx, idx', data', h1, h2, h3, h4⟩ := compress_spec hr junk junk' hb.nodes hk hids hb.sizes (by have := hb.files; omega)
  refine ⟨idx, idx', data', h1, h2, fun id hid => ?_, ?_⟩
  · obtain ⟨x, hx, rfl⟩ := List.mem_map.1 ((hids id).2 hid)
    rw [h3 x hx, ← g, get_mem hr hx]
  · have hp : (A.flatten.map fun x => x.1.id).Perm (List.range k) :=
      (List.perm_ext_iff_of_nodup hr.nodup List.nodup_range).2 fun i => by rw [hids, List.mem_range]
    have hs := (hp.map fun id => ((written h id).map fun w => w.2.length).getD 0).sum_nat
    rw [← hs, h4, List.map_map]
    have e1 : (A.flatten.map fun x => x.1.id).map (fun id => ((written h id).map fun w => w.2.length).getD 0) = A.flatten.map fun x => (x.2.take x.1.size).length := by
      rw [List.map_map, List.map_inj_left]
      intro x hx
      simp only [Function.comp_apply, ← g, get_mem hr hx, Option.map_some, Option.getD_some]
    rw [e1]
    have : ∀ B : List (List NB), (B.map (List.length ∘ fun P => (P.map fun x => x.2.take x.1.size).flatten)).sum = (B.flatten.map fun x => (x.2.take x.1.size).length).sum := by
      intro B
      induction B with
      | nil => rfl
      | cons P B ih =>
        rw [List.map_cons, List.sum_cons, ih, List.flatten_cons, List.map_append, List.sum_append]
        congr 1
        simp only [Function.comp_apply, List.length_flatten, List.map_map]
        rfl
    exact this A

/-! ## A concrete history: three nodes, the first one grown over the second, two files -/

def exPut (id : Nat) (c : Bool) (b : UInt8) (n : Nat) : Put := ⟨id, c, List.replicate (max n 4) b, n, fun _ => 7⟩

def exHist : List Put := [exPut 0 true 1 3, exPut 1 false 2 4, exPut 0 false 3 6, exPut 2 false 4 2, exPut 1 false 5 1]

def exStore : Store := (Store.fresh.puts 4 1032 exHist).getD Store.fresh

theorem ex_puts : Store.fresh.puts 4 1032 exHist = some exStore := by decide +kernel

example : exStore.data.length = 2 ∧ written exHist 0 = some (true, [3, 3, 3, 3, 3, 3]) ∧ written exHist 1 = some (false, [5]) ∧
    written exHist 2 = some (false, [4, 4]) ∧ written exHist 3 = none := by decide +kernel

theorem ex_dense : Dense exHist 3 := by
  intro id
  constructor
  · rintro ⟨p, hp, rfl⟩
    simp only [exHist, List.mem_cons, List.not_mem_nil, or_false] at hp
    rcases hp with rfl | rfl | rfl | rfl | rfl <;> decide
  · intro h
    have : id = 0 ∨ id = 1 ∨ id = 2 := by omega
    rcases this with rfl | rfl | rfl
    · exact ⟨_, List.mem_cons_self, rfl⟩
    · exact ⟨exPut 1 false 2 4, by simp [exHist], rfl⟩
    · exact ⟨exPut 2 false 4 2, by simp [exHist], rfl⟩

theorem ex_bounds : InBounds exStore 3 := ⟨by decide, by
    have : ∀ d ∈ exStore.data.map List.length, d < 2 ^ 31 := by decide +kernel
    exact fun d hd => this _ (List.mem_map_of_mem hd), by decide +kernel⟩

example : exStore.get 0 = some (true, [3, 3, 3, 3, 3, 3]) := by rw [C43_last_write (by decide) ex_puts]; decide +kernel

example : ∃ s, Store.fresh.puts 4 1032 exHist = some s := C43_total (by
  intro p hp
  simp only [exHist, List.mem_cons, List.not_mem_nil, or_false] at hp
  rcases hp with rfl | rfl | rfl | rfl | rfl <;> decide)

example : ∃ c d, exStore.find 0 = some c ∧ exStore.find 1 = some d ∧ c.file = d.file ∧ (c.pos + c.avail ≤ d.pos ∨ d.pos + d.avail ≤ c.pos) := by
  cases hc : exStore.find 0 with
  | none => exact absurd hc (by decide +kernel)
  | some c =>
    cases hd : exStore.find 1 with
    | none => exact absurd hd (by decide +kernel)
    | some d =>
      have hf : (exStore.find 0).map CNode.file = (exStore.find 1).map CNode.file := by decide +kernel
      rw [hc, hd] at hf
      simp only [Option.map_some, Option.some.injEq] at hf
      exact ⟨c, d, rfl, rfl, hf, (C43_disjoint (by decide) ex_puts hc hd (by decide)).1 hf⟩

example (junk : Nat → UInt8) : ∃ idx, exStore.close junk = some idx ∧ fetch idx exStore.data 1 = some (false, [5]) := by
  obtain ⟨idx, h1, h2⟩ := C43_reopened (by decide) ex_puts ex_dense ex_bounds junk
  exact ⟨idx, h1, by rw [h2 1 (by decide)]; decide +kernel⟩

example (junk junk' : Nat → UInt8) : ∃ idx idx' data', exStore.close junk = some idx ∧ compress idx exStore.data junk' = some (idx', data') ∧
    fetch idx' data' 0 = some (true, [3, 3, 3, 3, 3, 3]) ∧ (data'.map List.length).sum = 9 := by
  obtain ⟨idx, idx', data', h1, h2, h3, h4⟩ := C43_compacted (by decide) ex_puts ex_dense (by decide) ex_bounds junk junk'
  exact ⟨idx, idx', data', h1, h2, by rw [h3 0 (by decide)]; decide +kernel, by rw [h4]; decide +kernel⟩

end Trident.NodeStore
