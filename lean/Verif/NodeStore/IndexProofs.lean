import Verif.NodeStore.Proofs
/-! # The storage of tree nodes: proofs about the index and the compaction -/
namespace Trident.NodeStore

theorem placed_memOf (a b c : List UInt8) : Placed (memOf (a ++ (b ++ c))) a.length b := by
  intro i hi
  unfold memOf
  rw [List.getD_eq_getElem?_getD, List.getElem?_append_right (by omega), show a.length + i - a.length = i by omega, List.getElem?_append_left hi,
    List.getElem?_eq_getElem hi]
  rfl

theorem rdInt_enc {m : Mem} {a n : Nat} (hn : n < 2 ^ 32) (h : Placed m a (encBE 4 n)) : (rdInt m a).toNat = n := by
  have := Width.read_enc .b4 m a n hn h
  show (Width.b4.read m a).toNat = n
  rw [this]
  rfl

theorem rdLong_enc {m : Mem} {a n : Nat} (hn : n < 2 ^ 63) (h : Placed m a (encBE 8 n)) : (rdLong m a).toNat = n := by
  have := Width.read_enc .b8 m a n hn h
  show (Width.b8.read m a).toNat = n
  rw [this]
  rfl

/-- The fields fit into the record. -/
structure Fits (c : CNode) : Prop where
  id : c.id < 2 ^ 31
  file : c.file < 2 ^ 31
  pos : c.pos < 2 ^ 31
  size : c.size < 2 ^ 31
  avail : c.avail < 2 ^ 31

@[simp] theorem record_length (c : CNode) : (record c).length = 25 := by simp [record]

theorem readNode_record {c : CNode} (h : Fits c) (a z : List UInt8) : readNode (a ++ (record c ++ z)) a.length = some c := by
  have hp := placed_memOf a (record c) z
  obtain ⟨h1, h2, h3, h4, h5⟩ := h
  unfold readNode
  rw [if_pos (by simp only [List.length_append, record_length]; omega)]
  generalize memOf (a ++ (record c ++ z)) = m at hp
  unfold record at hp
  obtain ⟨p1, hp⟩ := placed_append.1 hp
  obtain ⟨p2, hp⟩ := placed_append.1 hp
  obtain ⟨p3, hp⟩ := placed_append.1 hp
  obtain ⟨p4, hp⟩ := placed_append.1 hp
  obtain ⟨p5, p6⟩ := placed_append.1 hp
  simp only [encBE_length, List.length_singleton] at p2 p3 p4 p5 p6
  have q2 := (placed_cons.1 p2).1
  rw [rdLong_enc (by omega) p1, q2, rdInt_enc (by omega) p3, rdInt_enc (by omega) p4, rdInt_enc (by omega) p5, rdInt_enc (by omega) p6]
  cases hc : c.children <;> cases c <;> simp_all

theorem body_append (a b : List (Bool × CNode)) : body (a ++ b) = body a ++ body b := by simp [body]

theorem body_length : ∀ l : List (Bool × CNode), (body l).length = 26 * l.length
  | [] => rfl
  | r :: l => by
    have := body_length l
    simp only [body, List.flatMap_cons, List.length_append, List.length_cons, record_length] at this ⊢
    omega

theorem overwrite_length {l w : List UInt8} {p : Nat} (h : p + w.length ≤ l.length) : (overwrite l p w).length = l.length := by
  unfold overwrite
  simp
  omega

/-- `w` stands at `p` in `l`. -/
def HasAt (l : List UInt8) (p : Nat) (w : List UInt8) : Prop := (l.drop p).take w.length = w

theorem hasAt_overwrite {l w : List UInt8} {p : Nat} (h : p + w.length ≤ l.length) : HasAt (overwrite l p w) p w := by
  unfold HasAt overwrite
  have : (l.take p).length = p := by simp; omega
  rw [List.append_assoc]
  rw [show (l.take p ++ (w ++ l.drop (p + w.length))).drop p = w ++ l.drop (p + w.length) by
    conv => lhs; arg 1; rw [← this]
    rw [List.drop_left]]
  simp

theorem hasAt_overwrite_ne {l w v : List UInt8} {p q : Nat} (hp : p + w.length ≤ l.length) (hq : q + v.length ≤ l.length)
    (hd : q + v.length ≤ p ∨ p + w.length ≤ q) (h : HasAt l q v) : HasAt (overwrite l p w) q v := by
  unfold HasAt at h ⊢
  apply List.ext_getElem?
  intro i
  by_cases hi : i < v.length
  · have hvi : v[i]? = l[q + i]? := by
      conv => lhs; rw [← h]
      rw [List.getElem?_take_of_lt hi, List.getElem?_drop]
    rw [hvi, List.getElem?_take_of_lt hi, List.getElem?_drop]
    unfold overwrite
    rcases hd with hd | hd
    · rw [List.append_assoc, List.getElem?_append_left (by simp; omega), List.getElem?_take_of_lt (by omega)]
    · rw [List.getElem?_append_right (by simp; omega), List.getElem?_drop]
      congr 1
      simp
      omega
  · rw [List.getElem?_eq_none (by rw [List.length_take]; omega), List.getElem?_eq_none (by omega)]

theorem coordinates_spec {K : Nat} : ∀ {l : List (Bool × CNode)} {p : Nat} {co : List UInt8}, co.length = 4 * K → (∀ r ∈ l, r.2.id < K) →
    (l.map fun r => r.2.id).Nodup → ∃ co', coordinates l p co = some co' ∧ co'.length = 4 * K ∧
      (∀ a r b, l = a ++ r :: b → HasAt co' (4 * r.2.id) (encBE 4 (p + 26 * a.length + 1))) ∧
      (∀ i w, i < K → i ∉ l.map (fun r => r.2.id) → w.length = 4 → HasAt co (4 * i) w → HasAt co' (4 * i) w)
  | [], p, co, hl, _, _ => ⟨co, rfl, hl, fun a r b e => by simp at e, fun _ _ _ _ _ h => h⟩
  | r :: l, p, co, hl, hk, hn => by
    have hr := hk r (by simp)
    simp only [List.map_cons, List.nodup_cons] at hn
    have hle : 4 * r.2.id + (encBE 4 (p + 1)).length ≤ co.length := by simp only [encBE_length]; omega
    obtain ⟨co', h1, h2, h3, h4⟩ := coordinates_spec (l := l) (p := p + 26) (co := overwrite co (4 * r.2.id) (encBE 4 (p + 1)))
      (by rw [overwrite_length hle]; exact hl) (fun s hs => hk s (by simp [hs])) hn.2
    refine ⟨co', ?_, h2, ?_, ?_⟩
    · unfold coordinates
      rw [if_pos (by omega)]
      exact h1
    · intro a s b e
      cases a with
      | nil =>
        simp at e
        obtain ⟨rfl, rfl⟩ := e
        exact h4 _ _ hr hn.1 (by simp) (hasAt_overwrite hle)
      | cons x a =>
        simp at e
        obtain ⟨rfl, rfl⟩ := e
        have := h3 a s b rfl
        rw [show p + 26 * (r :: a).length + 1 = p + 26 + 26 * a.length + 1 by simp; omega]
        exact this
    · intro i w hi hnot hw hat
      simp at hnot
      refine h4 i w hi (by simpa using hnot.2) hw (hasAt_overwrite_ne hle (by omega) ?_ hat)
      simp only [encBE_length]
      omega

theorem hasAt_readInt {x l z : List UInt8} {p v : Nat} (hv : v < 2 ^ 32) (hp : p + 4 ≤ l.length) (h : HasAt l p (encBE 4 v)) :
    readInt (x ++ (l ++ z)) (x.length + p) = some v := by
  unfold readInt
  rw [if_pos (by simp; omega)]
  congr 1
  apply rdInt_enc hv
  have hl : l = l.take p ++ (encBE 4 v ++ l.drop (p + 4)) := by
    unfold HasAt at h
    simp only [encBE_length] at h
    conv => lhs; rw [← List.take_append_drop p l, ← List.take_append_drop 4 (l.drop p), h, List.drop_drop]
  have hlen : (l.take p).length = p := by simp; omega
  have := placed_memOf (x ++ l.take p) (encBE 4 v) (l.drop (p + 4) ++ z)
  rw [List.length_append, hlen] at this
  rw [show x ++ (l ++ z) = x ++ l.take p ++ (encBE 4 v ++ (l.drop (p + 4) ++ z)) by
    conv => lhs; rw [hl]
    simp]
  exact this

/-- Nodes numbered from 0 are found again through the index. -/
theorem index_spec {l : List (Bool × CNode)} (junk : Nat → UInt8) (hk : ∀ r ∈ l, r.2.id < l.length) (hn : (l.map fun r => r.2.id).Nodup)
    (hf : ∀ r ∈ l, Fits r.2) (hl : 30 * l.length + 4 < 2 ^ 31) : ∃ idx co, index l junk = some idx ∧ idx = encBE 4 l.length ++ (co ++ body l) ∧ co.length = 4 * l.length ∧
      ∀ r ∈ l, loadNode idx r.2.id = some r.2 := by
  obtain ⟨co, h1, h2, h3, -⟩ := coordinates_spec (K := l.length) (l := l) (p := 4 + 4 * l.length) (co := (List.range (4 * l.length)).map junk) (by simp) hk hn
  refine ⟨encBE 4 l.length ++ (co ++ body l), co, by unfold index; rw [h1]; rfl, rfl, h2, fun r hr => ?_⟩
  obtain ⟨a, b, hab⟩ := List.append_of_mem hr
  have hat := h3 a r b hab
  have hri := hk r hr
  have hlen := congrArg List.length hab
  simp at hlen
  have := hasAt_readInt (x := encBE 4 l.length) (z := body l) (v := 4 + 4 * l.length + 26 * a.length + 1) (by omega) (by omega) hat
  unfold loadNode
  simp only [encBE_length] at this
  rw [Nat.mul_comm r.2.id 4, this]
  simp only [Option.bind_some]
  have hbody : encBE 4 l.length ++ (co ++ body l) = (encBE 4 l.length ++ co ++ body a ++ [if r.1 then 1 else 0]) ++ (record r.2 ++ body b) := by
    conv => lhs; arg 2; arg 2; rw [hab, body_append]
    simp [body]
  rw [hbody, show 4 + 4 * l.length + 26 * a.length + 1 = (encBE 4 l.length ++ co ++ body a ++ [if r.1 then (1 : UInt8) else 0]).length by
    simp [body_length]; omega]
  exact readNode_record (hf r hr) _ _

/-! ## The marked list -/

theorem marked_cons (l : List CNode) (ls : List (List CNode)) : marked (l :: ls) = marked [l] ++ marked ls := by simp [marked]

theorem marked_snd : ∀ ls : List (List CNode), (marked ls).map Prod.snd = ls.flatten
  | [] => rfl
  | l :: ls => by
    rw [marked_cons, List.map_append, marked_snd ls, List.flatten_cons]
    congr 1
    cases l <;> simp [marked, Function.comp_def]

theorem group_run (acc : List (List CNode)) (c : CNode) : ∀ cs done : List CNode,
    (cs.map fun d => (false, d)).foldlM (fun acc (r : Bool × CNode) => if r.1 then some (acc ++ [[r.2]]) else if acc = [] then none
      else some (acc.modify (acc.length - 1) (· ++ [r.2]))) (acc ++ [c :: done]) = some (acc ++ [c :: (done ++ cs)])
  | [], done => by simp
  | d :: cs, done => by
    simp only [List.map_cons, List.foldlM_cons]
    rw [if_neg (by simp), if_neg (by simp)]
    have hm := modify_append (· ++ [d]) (c :: done) acc []
    have hlen : (acc ++ [c :: done]).length - 1 = acc.length := by simp
    rw [hlen, hm]
    have := group_run acc c cs (done ++ [d])
    simp only [List.append_assoc, List.singleton_append] at this
    simpa using this

theorem group_marked : ∀ (ls acc : List (List CNode)), (∀ l ∈ ls, l ≠ []) →
    (marked ls).foldlM (fun acc (r : Bool × CNode) => if r.1 then some (acc ++ [[r.2]]) else if acc = [] then none
      else some (acc.modify (acc.length - 1) (· ++ [r.2]))) acc = some (acc ++ ls)
  | [], acc, _ => by simp [marked]
  | l :: ls, acc, h => by
    cases l with
    | nil => exact absurd rfl (h [] (by simp))
    | cons c cs =>
      have hm : marked ((c :: cs) :: ls) = (true, c) :: ((cs.map fun d => (false, d)) ++ marked ls) := by simp [marked]
      rw [hm, List.foldlM_cons]
      simp only [if_true, Option.bind_eq_bind, Option.bind_some]
      rw [List.foldlM_append]
      have := group_run acc c cs []
      simp only [Option.bind_eq_bind]
      rw [this]
      simp only [Option.bind_some, List.nil_append]
      rw [group_marked ls _ (fun l hl => h l (by simp [hl]))]
      simp

theorem scan_body (pre : List UInt8) : ∀ (l : List (Bool × CNode)) (done : List UInt8) (fuel : Nat), (∀ r ∈ l, Fits r.2) → l.length < fuel →
    scan (pre ++ (done ++ body l)) fuel (pre.length + done.length) = some l
  | [], done, fuel, _, hf => by
    obtain ⟨fuel, rfl⟩ : ∃ x, fuel = x + 1 := ⟨fuel - 1, by simp at hf; omega⟩
    unfold scan
    rw [if_neg (by simp [body])]
  | r :: l, done, fuel, h, hf => by
    obtain ⟨fuel, rfl⟩ : ∃ x, fuel = x + 1 := ⟨fuel - 1, by simp at hf; omega⟩
    have hb : body (r :: l) = ((if r.1 then 1 else 0) :: record r.2) ++ body l := by simp [body]
    unfold scan
    rw [if_pos (by simp only [List.length_append, body_length, List.length_cons]; omega)]
    have e1 : pre ++ (done ++ body (r :: l)) = (pre ++ done ++ [if r.1 then (1 : UInt8) else 0]) ++ (record r.2 ++ body l) := by rw [hb]; simp
    have e2 : pre ++ (done ++ body (r :: l)) = pre ++ ((done ++ (if r.1 then (1 : UInt8) else 0) :: record r.2) ++ body l) := by rw [hb]; simp
    have h1 : readNode (pre ++ (done ++ body (r :: l))) (pre.length + done.length + 1) = some r.2 := by
      rw [e1]
      have := readNode_record (h r (by simp)) (pre ++ done ++ [if r.1 then (1 : UInt8) else 0]) (body l)
      simpa [Nat.add_assoc] using this
    have h2 : scan (pre ++ (done ++ body (r :: l))) fuel (pre.length + done.length + 26) = some l := by
      rw [e2]
      have := scan_body pre l (done ++ (if r.1 then (1 : UInt8) else 0) :: record r.2) fuel (fun s hs => h s (by simp [hs])) (by simp at hf; omega)
      rw [show pre.length + done.length + 26 = pre.length + (done ++ (if r.1 then (1 : UInt8) else 0) :: record r.2).length by simp; omega]
      exact this
    have h3 : memOf (pre ++ (done ++ body (r :: l))) (pre.length + done.length) = if r.1 then 1 else 0 := by
      have := placed_memOf (pre ++ done) [if r.1 then (1 : UInt8) else 0] (record r.2 ++ body l)
      have hq := (placed_cons.1 this).1
      rw [e1]
      simpa using hq
    rw [h1]
    simp only [Option.bind_some]
    rw [h2, h3]
    obtain ⟨f, c⟩ := r
    cases f <;> rfl

/-! ## Packing -/

/-- The nodes and blocks of the new file. -/
def packNB : List NB → Nat → List NB
  | [], _ => []
  | x :: xs, p => ({ x.1 with pos := p, avail := x.1.size }, x.2.take x.1.size) :: packNB xs (p + x.1.size)

theorem packFile_spec {k : Nat} : ∀ {P1 P : List NB} (q : Nat), Laid k (bytesOf P1).length P →
    packFile (bytesOf (P1 ++ P)) (P.map Prod.fst) q = ((packNB P q).map Prod.fst, bytesOf (packNB P q))
  | P1, [], q, _ => rfl
  | P1, x :: P, q, h => by
    obtain ⟨h1, h2, h3, h4, h5⟩ := h
    have ih := packFile_spec (P1 := P1 ++ [x]) (P := P) (q + x.1.size) (by rw [bytesOf_append]; simpa [bytesOf] using h5)
    rw [List.append_assoc, List.singleton_append] at ih
    simp only [List.map_cons, packFile, packNB, ih]
    have : ((bytesOf (P1 ++ x :: P)).drop x.1.pos).take x.1.size = x.2.take x.1.size := by
      rw [h2, bytesOf_append, List.drop_left, bytesOf_cons, List.take_append_of_le_length h4]
    rw [this, bytesOf_cons]

theorem laid_pack {k : Nat} : ∀ {P : List NB} {p : Nat} (q : Nat), Laid k p P → Laid k q (packNB P q)
  | [], _, _, _ => trivial
  | x :: P, p, q, h => by
    obtain ⟨h1, h2, h3, h4, h5⟩ := h
    have hl : (x.2.take x.1.size).length = x.1.size := by simp; omega
    refine ⟨h1, rfl, hl.symm, by simp only [hl]; omega, ?_⟩
    simp only [hl]
    exact laid_pack _ h5

theorem packNB_view : ∀ (P : List NB) (q : Nat), (packNB P q).map (fun x => (x.1.id, x.1.children, x.2.take x.1.size)) = P.map fun x => (x.1.id, x.1.children, x.2.take x.1.size)
  | [], _ => rfl
  | x :: P, q => by
    simp only [packNB, List.map_cons, packNB_view P, List.take_take, Nat.min_self]

theorem packAll_spec : ∀ {A : List (List NB)} (k : Nat), (∀ i P, A[i]? = some P → Laid (k + i) 0 P) →
    packAll (A.map (List.map Prod.fst)) (A.map bytesOf) = ((A.map fun P => packNB P 0).map (List.map Prod.fst), (A.map fun P => packNB P 0).map bytesOf)
  | [], _, _ => rfl
  | P :: A, k, h => by
    have ih := packAll_spec (A := A) (k + 1) (fun i Q hq => by
      have := h (i + 1) Q (by simpa using hq)
      rw [show k + 1 + i = k + (i + 1) by omega]
      exact this)
    have h0 := packFile_spec (P1 := []) (P := P) 0 (by simpa [bytesOf] using h 0 P (by simp))
    simp only [List.nil_append] at h0
    simp only [List.map_cons, packAll, List.headD_cons, List.tail_cons, ih, h0]

/-! ## All together -/

theorem bytesOf_mem_le {x : NB} : ∀ {P : List NB}, x ∈ P → x.2.length ≤ (bytesOf P).length
  | [], h => by simp at h
  | y :: P, h => by
    rw [bytesOf_cons, List.length_append]
    rcases List.mem_cons.1 h with rfl | h
    · omega
    · have := bytesOf_mem_le h; omega

theorem laid_pos_le {k : Nat} {x : NB} : ∀ {P : List NB} {p : Nat}, Laid k p P → x ∈ P → x.1.pos + x.2.length ≤ p + (bytesOf P).length
  | [], _, _, h => by simp at h
  | y :: P, p, hl, h => by
    obtain ⟨h1, h2, h3, h4, h5⟩ := hl
    rw [bytesOf_cons, List.length_append]
    rcases List.mem_cons.1 h with rfl | h
    · omega
    · have := laid_pos_le h5 h; omega

theorem rep_fits {s : Store} {A : List (List NB)} (h : Rep s A) {K : Nat} (hK : 30 * K + 4 < 2 ^ 31) (hid : ∀ x ∈ A.flatten, x.1.id < K)
    (hd : ∀ d ∈ s.data, d.length < 2 ^ 31) (hf : s.data.length < 2 ^ 31) {x : NB} (hx : x ∈ A.flatten) : Fits x.1 := by
  obtain ⟨A1, P1, P2, A2, rfl⟩ := split_of_mem hx
  have hl := h.laid A1.length (P1 ++ x :: P2) (by simp)
  have hdl := hd (bytesOf (P1 ++ x :: P2)) (by rw [h.data]; simp)
  have hpos := laid_pos_le hl (x := x) (by simp)
  obtain ⟨-, e1, e2, e3, e4, -⟩ := laid_append.1 hl
  have hi := hid x hx
  rw [h.data] at hf
  simp at hf
  exact ⟨by omega, by omega, by omega, by omega, by omega⟩

/-- Closing and opening for reading. -/
theorem close_spec {s : Store} {A : List (List NB)} (h : Rep s A) (junk : Nat → UInt8) {K : Nat} (hK : 30 * K + 4 < 2 ^ 31)
    (hid : ∀ i, i ∈ A.flatten.map (fun x => x.1.id) ↔ i < K) (hd : ∀ d ∈ s.data, d.length < 2 ^ 31) (hf : s.data.length < 2 ^ 31) :
    ∃ idx co, s.close junk = some idx ∧ idx = encBE 4 K ++ (co ++ body (marked s.lists)) ∧ co.length = 4 * K ∧ (marked s.lists).length = K ∧
      (∀ r ∈ marked s.lists, Fits r.2) ∧
      ∀ x ∈ A.flatten, fetch idx s.data x.1.id = some (x.1.children, x.2.take x.1.size) := by
  have hsnd : (marked s.lists).map Prod.snd = A.flatten.map Prod.fst := by rw [marked_snd, h.lists, List.map_flatten]
  have hids : (marked s.lists).map (fun r => r.2.id) = A.flatten.map fun x => x.1.id := by
    have := congrArg (List.map CNode.id) hsnd
    simpa only [List.map_map, Function.comp_def] using this
  have hlen : (marked s.lists).length = K := by
    have hp : (A.flatten.map fun x => x.1.id).Perm (List.range K) :=
      (List.perm_ext_iff_of_nodup h.nodup List.nodup_range).2 fun i => by rw [hid, List.mem_range]
    have := hp.length_eq
    rw [← hids] at this
    simpa using this
  have hidA : ∀ x ∈ A.flatten, x.1.id < K := fun x hx => (hid _).1 (List.mem_map_of_mem hx)
  have hfits : ∀ r ∈ marked s.lists, Fits r.2 := by
    intro r hr
    have : r.2 ∈ A.flatten.map Prod.fst := by rw [← hsnd]; exact List.mem_map_of_mem hr
    obtain ⟨x, hx, he⟩ := List.mem_map.1 this
    rw [← he]
    exact rep_fits h hK hidA hd hf hx
  obtain ⟨idx, co, h1, h2, h3, h4⟩ := index_spec (l := marked s.lists) junk (fun r hr => by
    rw [hlen]
    have : r.2.id ∈ A.flatten.map fun x => x.1.id := by rw [← hids]; exact List.mem_map.2 ⟨r, hr, rfl⟩
    exact (hid _).1 this) (by rw [hids]; exact h.nodup) hfits (by rw [hlen]; exact hK)
  rw [hlen] at h2 h3
  refine ⟨idx, co, h1, h2, h3, hlen, hfits, fun x hx => ?_⟩
  have : x.1 ∈ (marked s.lists).map Prod.snd := by rw [hsnd]; exact List.mem_map_of_mem hx
  obtain ⟨r, hr, he⟩ := List.mem_map.1 this
  have hld := h4 r hr
  rw [he] at hld
  unfold fetch
  rw [hld]
  simp only [Option.bind_some, blockOf_mem h hx, Option.map_some]

/-- The compaction keeps the nodes. -/
theorem compress_spec {s : Store} {A : List (List NB)} (h : Rep s A) (junk junk' : Nat → UInt8) {K : Nat} (hK : 30 * K + 4 < 2 ^ 31) (hpos : 0 < K)
    (hid : ∀ i, i ∈ A.flatten.map (fun x => x.1.id) ↔ i < K) (hd : ∀ d ∈ s.data, d.length < 2 ^ 31) (hf : s.data.length < 2 ^ 31) :
    ∃ idx idx' data', s.close junk = some idx ∧ compress idx s.data junk' = some (idx', data') ∧
      (∀ x ∈ A.flatten, fetch idx' data' x.1.id = some (x.1.children, x.2.take x.1.size)) ∧
      data' = A.map fun P => (P.map fun x => x.2.take x.1.size).flatten := by
  obtain ⟨idx, co, h1, h2, h3, h4, h5, -⟩ := close_spec h junk hK hid hd hf
  have hfull : A ≠ [] ∧ ∀ P ∈ A, P ≠ [] := by
    rcases h.full with hfl | hfl
    · rw [hfl] at hid
      have := (hid 0).2 hpos
      simp at this
    · exact hfl
  -- the packed store
  let A' := A.map fun P => packNB P 0
  let s' : Store := ⟨A'.map (List.map Prod.fst), A'.map bytesOf⟩
  have hview : view A' = view A := by
    simp only [view, A', List.map_flatten, List.map_map]
    congr 1
    rw [List.map_inj_left]
    intro P hP
    exact packNB_view P 0
  have hids : (A'.flatten.map fun x => x.1.id) = A.flatten.map fun x => x.1.id := by
    have := congrArg (List.map (·.1)) hview
    simpa only [view, List.map_map, Function.comp_def] using this
  have hrep : Rep s' A' := by
    refine ⟨rfl, rfl, ?_, by rw [hids]; exact h.nodup, .inr ⟨?_, ?_⟩⟩
    · intro k Q hk
      simp only [A', List.getElem?_map, Option.map_eq_some_iff] at hk
      obtain ⟨P, hP, rfl⟩ := hk
      exact laid_pack 0 (h.laid k P hP)
    · intro he
      exact hfull.1 (List.map_eq_nil_iff.1 he)
    · intro Q hQ
      obtain ⟨P, hP, rfl⟩ := List.mem_map.1 hQ
      have := hfull.2 P hP
      cases P with
      | nil => exact absurd rfl this
      | cons x P => simp [packNB]
  have hbytes : ∀ P : List NB, ∀ q k p, Laid k p P → (bytesOf (packNB P q)).length ≤ (bytesOf P).length := by
    intro P
    induction P with
    | nil => intro q k p _; simp [packNB, bytesOf]
    | cons x P ih =>
      intro q k p hl
      obtain ⟨e1, e2, e3, e4, e5⟩ := hl
      have := ih (q + x.1.size) _ _ e5
      simp only [packNB, bytesOf_cons, List.length_append, List.length_take]
      omega
  have hd' : ∀ d ∈ s'.data, d.length < 2 ^ 31 := by
    intro d hd1
    simp only [s', A', List.map_map, List.mem_map, Function.comp_apply] at hd1
    obtain ⟨P, hP, rfl⟩ := hd1
    obtain ⟨k, hk, hkP⟩ := List.getElem_of_mem hP
    have h1 := hbytes P 0 k 0 (h.laid k P (by rw [List.getElem?_eq_getElem hk, hkP]))
    have h2 := hd (bytesOf P) (by rw [h.data]; exact List.mem_map_of_mem hP)
    omega
  have hf' : s'.data.length < 2 ^ 31 := by
    have := hf
    rw [h.data] at this
    simpa [s', A'] using this
  obtain ⟨idx', co', g1, -, -, -, -, g6⟩ := close_spec hrep junk' hK (fun i => by rw [hids]; exact hid i) hd' hf'
  have hpack := packAll_spec (A := A) 0 (fun i P hi => by rw [Nat.zero_add]; exact h.laid i P hi)
  refine ⟨idx, idx', s'.data, h1, ?_, ?_, ?_⟩
  · have r1 : readInt idx 0 = some K := by
      unfold readInt
      rw [h2, if_pos (by simp)]
      congr 1
      apply rdInt_enc (by omega)
      have := placed_memOf [] (encBE 4 K) (co ++ body (marked s.lists))
      simpa using this
    have r2 : scan idx (idx.length + 1) (4 + 4 * K) = some (marked s.lists) := by
      have := scan_body (encBE 4 K) (marked s.lists) co (idx.length + 1) h5 (by
        rw [h2]
        simp only [List.length_append, body_length, encBE_length]
        omega)
      rw [← h2, encBE_length, h3] at this
      exact this
    have r3 : group (marked s.lists) = some s.lists := by
      have := group_marked s.lists [] (fun l hl => by
        rw [h.lists] at hl
        obtain ⟨P, hP, rfl⟩ := List.mem_map.1 hl
        intro he
        exact hfull.2 P hP (List.map_eq_nil_iff.1 he))
      simpa [group] using this
    unfold compress
    simp only [Option.bind_eq_bind, r1, Option.bind_some, r2, r3]
    rw [if_neg (by omega)]
    have r4 : packAll s.lists s.data = (s'.lists, s'.data) := by rw [h.lists, h.data]; exact hpack
    rw [r4]
    unfold Store.close at g1
    rw [g1]
    rfl
  · intro x hx
    have hv : (x.1.id, x.1.children, x.2.take x.1.size) ∈ view A' := by rw [hview]; exact List.mem_map_of_mem (f := fun x : NB => (x.1.id, x.1.children, x.2.take x.1.size)) hx
    obtain ⟨y, hy, he⟩ := List.mem_map.1 hv
    simp only [Prod.mk.injEq] at he
    rw [← he.1, g6 y hy, he.2.1, he.2.2]
  · simp only [s', A', List.map_map]
    rw [List.map_inj_left]
    intro P hP
    have : ∀ (P : List NB) q, (packNB P q).map Prod.snd = P.map fun x => x.2.take x.1.size := by
      intro P
      induction P with
      | nil => intro q; rfl
      | cons x P ih => intro q; simp [packNB, ih]
    simp only [Function.comp_apply, bytesOf, this]

end Trident.NodeStore
