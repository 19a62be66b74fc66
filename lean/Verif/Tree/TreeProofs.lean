import Verif.Tree.Tree
import Verif.Tree.NodeProofs
/-! Helper proofs for the term tree (no property statements here). -/
namespace Trident.BTree

variable {β γ τ : Type}

/-! ## Association lists -/

/-- The value of a key. -/
def find (key : Int) (l : List (Int × β)) : Option β := (l.find? fun e => e.1 = key).map (·.2)

/-- Putting a value into a sorted list. -/
def insE (new : γ → β) (upd : β → γ → β) (key : Int) (v : γ) : List (Int × β) → List (Int × β)
  | [] => [(key, new v)]
  | e :: l => if e.1 < key then e :: insE new upd key v l else if e.1 = key then (key, upd e.2 v) :: l else (key, new v) :: e :: l

variable {new : γ → β} {upd : β → γ → β}

theorem insE_left {key : Int} {v : γ} {A B : List (Int × β)} (h : ∀ e ∈ A, e.1 < key) :
    insE new upd key v (A ++ B) = A ++ insE new upd key v B := by
  induction A with
  | nil => rfl
  | cons a A ih => simp only [List.cons_append, insE]; rw [if_pos (h a (by simp)), ih fun e he => h e (by simp [he])]

theorem insE_right {key : Int} {v : γ} {A B : List (Int × β)} (h : ∀ e ∈ B, key < e.1) :
    insE new upd key v (A ++ B) = insE new upd key v A ++ B := by
  induction A with
  | nil =>
    cases B with
    | nil => rfl
    | cons b B =>
      have := h b (by simp)
      simp only [List.nil_append, insE]
      rw [if_neg (by omega), if_neg (by omega)]; rfl
  | cons a A ih =>
    simp only [List.cons_append, insE]
    rw [ih]
    by_cases h1 : a.1 < key
    · rw [if_pos h1, if_pos h1]; rfl
    · rw [if_neg h1, if_neg h1]
      by_cases h2 : a.1 = key
      · rw [if_pos h2, if_pos h2]; rfl
      · rw [if_neg h2, if_neg h2]; rfl

theorem insE_ne (key : Int) (v : γ) (l : List (Int × β)) : insE new upd key v l ≠ [] := by
  cases l with
  | nil => simp [insE]
  | cons e l =>
    unfold insE
    split
    · simp
    · split <;> simp

theorem mem_insE {key : Int} {v : γ} {l : List (Int × β)} {e} (h : e ∈ insE new upd key v l) : e.1 = key ∨ e ∈ l := by
  induction l with
  | nil => simp [insE] at h; exact .inl (by rw [h])
  | cons a l ih =>
    unfold insE at h
    split at h
    · rcases List.mem_cons.1 h with rfl | h
      · exact .inr (by simp)
      · rcases ih h with h | h
        · exact .inl h
        · exact .inr (by simp [h])
    · split at h
      · rcases List.mem_cons.1 h with rfl | h
        · exact .inl rfl
        · exact .inr (by simp [h])
      · rcases List.mem_cons.1 h with rfl | h
        · exact .inl rfl
        · exact .inr h

theorem insE_sorted {key : Int} {v : γ} {l : List (Int × β)} (h : l.Pairwise fun a b => a.1 < b.1) :
    (insE new upd key v l).Pairwise fun a b => a.1 < b.1 := by
  induction l with
  | nil => simp [insE]
  | cons a l ih =>
    rw [List.pairwise_cons] at h
    unfold insE
    split
    · next h1 =>
      refine List.pairwise_cons.2 ⟨fun e he => ?_, ih h.2⟩
      rcases mem_insE he with e' | e'
      · omega
      · exact h.1 e e'
    · split
      · next h2 => exact List.pairwise_cons.2 ⟨fun e he => by have := h.1 e he; show key < _; omega, h.2⟩
      · exact List.pairwise_cons.2 ⟨fun e he => by
          show key < _
          rcases List.mem_cons.1 he with rfl | he
          · omega
          · have := h.1 e he; omega, List.pairwise_cons.2 h⟩

theorem find_insE {key : Int} {v : γ} {l : List (Int × β)} (h : l.Pairwise fun a b => a.1 < b.1) (k : Int) :
    find k (insE new upd key v l) = if k = key then some (match find key l with | none => new v | some b => upd b v) else find k l := by
  induction l with
  | nil =>
    by_cases hk : k = key
    · simp [insE, find, hk]
    · rw [if_neg hk]; simp [insE, find]; omega
  | cons a l ih =>
    rw [List.pairwise_cons] at h
    have ih := ih h.2
    unfold find at ih ⊢
    unfold insE
    by_cases h1 : a.1 < key
    · rw [if_pos h1]
      by_cases hk : k = key
      · rw [if_pos hk] at ih ⊢
        subst hk
        simp only [List.find?_cons]
        rw [decide_eq_false (by omega)]
        exact ih
      · rw [if_neg hk] at ih ⊢
        simp only [List.find?_cons]
        by_cases h3 : a.1 = k
        · rw [decide_eq_true h3]
        · rw [decide_eq_false h3]; exact ih
    · rw [if_neg h1]
      by_cases h2 : a.1 = key
      · rw [if_pos h2]
        by_cases hk : k = key
        · rw [if_pos hk]; subst hk; simp [List.find?_cons, h2]
        · rw [if_neg hk]
          simp only [List.find?_cons]
          rw [decide_eq_false (by omega : ¬ key = k), decide_eq_false (by omega : ¬ a.1 = k)]
      · rw [if_neg h2]
        have hn : l.find? (fun e => decide (e.1 = key)) = none := by
          rw [List.find?_eq_none]
          intro e he
          have := h.1 e he
          simp; omega
        by_cases hk : k = key
        · rw [if_pos hk]; subst hk
          simp [List.find?_cons, h2, hn]
        · rw [if_neg hk]
          simp only [List.find?_cons]
          rw [decide_eq_false (by omega : ¬ key = k)]

theorem find_skip {key : Int} {A B C : List (Int × β)} (hA : ∀ e ∈ A, e.1 < key) (hC : ∀ e ∈ C, key < e.1) : find key (A ++ (B ++ C)) = find key B := by
  unfold find
  rw [List.find?_append, List.find?_append]
  have h1 : A.find? (fun e => decide (e.1 = key)) = none := by
    rw [List.find?_eq_none]; intro e he; have := hA e he; simp; omega
  have h2 : C.find? (fun e => decide (e.1 = key)) = none := by
    rw [List.find?_eq_none]; intro e he; have := hC e he; simp; omega
  rw [h1, h2]; simp

theorem insE_at {key : Int} {v : γ} {l : List (Int × β)} {p : Nat} (h1 : ∀ e ∈ l.take p, e.1 < key) (h2 : ∀ e ∈ l.drop p, key < e.1) :
    insE new upd key v l = insertAt l p (key, new v) := by
  have : insE new upd key v (l.take p ++ l.drop p) = _ := insE_left h1
  rw [List.take_append_drop] at this
  rw [this, insertAt]
  congr 1
  have := insE_right (new := new) (upd := upd) (key := key) (v := v) (A := []) h2
  exact this

theorem insE_found {key : Int} {v : γ} {l : List (Int × β)} {p : Nat} (hs : l.Pairwise fun a b => a.1 < b.1) (b : β) (h : l[p]? = some (key, b)) :
    insE new upd key v l = l.modify p fun e => (e.1, upd e.2 v) := by
  induction l generalizing p with
  | nil => simp at h
  | cons a l ih =>
    rw [List.pairwise_cons] at hs
    cases p with
    | zero =>
      simp at h
      subst h
      simp [insE]
    | succ p =>
      simp at h
      have := hs.1 _ (List.mem_of_getElem? h)
      unfold insE
      rw [if_pos this, ih hs.2 h]
      simp

theorem zip_insertAt {α : Type} (ks : List Int) (vs : List α) (h : ks.length = vs.length) (p : Nat) (k : Int) (v : α) :
    (insertAt ks p k).zip (insertAt vs p v) = insertAt (ks.zip vs) p (k, v) := by
  unfold insertAt
  rw [List.zip_append (by simp [h])]
  simp [List.zip, List.take_zipWith, List.drop_zipWith]

theorem zip_modify {α : Type} (ks : List Int) (vs : List α) (p : Nat) (f : α → α) :
    ks.zip (vs.modify p f) = (ks.zip vs).modify p fun e => (e.1, f e.2) := by
  induction ks generalizing vs p with
  | nil => simp
  | cons k ks ih =>
    cases vs with
    | nil => simp
    | cons v vs =>
      cases p with
      | zero => simp
      | succ p => simp [ih]

/-! ## Leaves -/

/-- What a tree holds. -/
def Leaf.entries (l : Leaf β) : List (Int × β) := l.keys.list.zip l.vals

structure LeafOk (l : Leaf β) (lo hi : Int) : Prop where
  wf : l.keys.Wf
  len : l.vals.length = l.keys.size
  sorted : l.keys.list.Pairwise (· < ·)
  bounds : ∀ x ∈ l.keys.list, lo < x ∧ x ≤ hi

theorem LeafOk.fst {l : Leaf β} {lo hi} (h : LeafOk l lo hi) : l.entries.map (·.1) = l.keys.list := by
  unfold Leaf.entries
  rw [List.map_fst_zip]
  rw [Keys.list_length, h.len]; exact Nat.le_refl _

theorem LeafOk.entries_sorted {l : Leaf β} {lo hi} (h : LeafOk l lo hi) : l.entries.Pairwise fun a b => a.1 < b.1 := by
  have := h.sorted
  rw [← h.fst] at this
  exact List.pairwise_map.1 this

theorem LeafOk.entries_length {l : Leaf β} {lo hi} (h : LeafOk l lo hi) : l.entries.length = l.keys.size := by
  have := congrArg List.length h.fst
  simpa using this

theorem LeafOk.mem {l : Leaf β} {lo hi} (h : LeafOk l lo hi) {e} (he : e ∈ l.entries) : lo < e.1 ∧ e.1 ≤ hi :=
  h.bounds _ (by rw [← h.fst]; exact List.mem_map.2 ⟨e, he, rfl⟩)

theorem insertAt_sorted {l : List Int} {p : Nat} {key : Int} (hs : l.Pairwise (· < ·)) (h1 : ∀ x ∈ l.take p, x < key) (h2 : ∀ x ∈ l.drop p, key < x) :
    (insertAt l p key).Pairwise (· < ·) := by
  unfold insertAt
  rw [List.pairwise_append]
  refine ⟨hs.sublist (List.take_sublist _ _), List.pairwise_cons.2 ⟨h2, hs.sublist (List.drop_sublist _ _)⟩, fun a ha b hb => ?_⟩
  rcases List.mem_cons.1 hb with rfl | hb
  · exact h1 a ha
  · exact Int.lt_trans (h1 a ha) (h2 b hb)

theorem mem_insertAt {α} {l : List α} {p : Nat} {x y : α} (h : x ∈ insertAt l p y) : x = y ∨ x ∈ l := by
  unfold insertAt at h
  rcases List.mem_append.1 h with h | h
  · exact .inr (List.mem_of_mem_take h)
  · rcases List.mem_cons.1 h with h | h
    · exact .inl h
    · exact .inr (List.mem_of_mem_drop h)

theorem Leaf.insert_spec {l : Leaf β} {lo hi key : Int} (h : LeafOk l lo hi) (hk : lo < key ∧ key ≤ hi) (v : γ) :
    LeafOk (l.insert new upd key v) lo hi ∧ (l.insert new upd key v).entries = insE new upd key v l.entries ∧
      0 < (l.insert new upd key v).keys.size ∧
      (match l.keys.pos key with | .found _ => (l.insert new upd key v).keys.size = l.keys.size | .ins _ => (l.insert new upd key v).keys.size = l.keys.size + 1) := by
  have S := Keys.pos_spec h.wf h.sorted key
  unfold Leaf.insert
  cases hp : l.keys.pos key with
  | found p =>
    rw [hp] at S
    have S : l.keys.list[p]? = some key := S
    have hps : p < l.keys.size := by have := (List.getElem?_eq_some_iff.1 S).1; simpa using this
    refine ⟨⟨h.wf, by simp [h.len], h.sorted, h.bounds⟩, ?_, by show 0 < l.keys.size; omega, rfl⟩
    show l.keys.list.zip (l.vals.modify p (upd · v)) = _
    rw [zip_modify]
    have hpe : p < l.entries.length := by rw [h.entries_length]; exact hps
    refine (insE_found h.entries_sorted (l.entries[p]).2 ?_).symm
    rw [List.getElem?_eq_getElem hpe]
    congr 1
    have : (l.entries.map (·.1))[p]? = some key := by rw [h.fst]; exact S
    rw [List.getElem?_map, List.getElem?_eq_getElem hpe] at this
    simp at this
    rw [← this]
  | ins p =>
    rw [hp] at S
    have S' := Keys.putkeyAt_spec h.wf S
    obtain ⟨s1, s2, s3⟩ := S
    rw [Keys.list_length] at s1
    have hsz : (l.keys.putkeyAt key p).size = l.keys.size + 1 := by
      rw [← Keys.list_length, S'.2, insertAt_length _ _ _ (by simpa using s1), Keys.list_length]
    refine ⟨⟨S'.1, ?_, ?_, ?_⟩, ?_, ?_, hsz⟩
    · show (insertAt l.vals p (new v)).length = (l.keys.putkeyAt key p).size
      rw [insertAt_length _ _ _ (by rw [h.len]; exact s1), hsz, h.len]
    · show (l.keys.putkeyAt key p).list.Pairwise (· < ·)
      rw [S'.2]
      exact insertAt_sorted h.sorted s2 s3
    · intro x hx
      have hx : x ∈ (l.keys.putkeyAt key p).list := hx
      rw [S'.2] at hx
      rcases mem_insertAt hx with rfl | hx
      · exact hk
      · exact h.bounds x hx
    · show (l.keys.putkeyAt key p).list.zip (insertAt l.vals p (new v)) = _
      rw [S'.2, zip_insertAt _ _ (by rw [Keys.list_length, h.len])]
      symm
      have hz1 : ∀ e ∈ l.entries.take p, e.1 < key := fun e he => s2 e.1 (by
        rw [← h.fst, ← List.map_take]; exact List.mem_map.2 ⟨e, he, rfl⟩)
      have hz2 : ∀ e ∈ l.entries.drop p, key < e.1 := fun e he => s3 e.1 (by
        rw [← h.fst, ← List.map_drop]; exact List.mem_map.2 ⟨e, he, rfl⟩)
      exact insE_at hz1 hz2
    · show 0 < (l.keys.putkeyAt key p).size
      omega

/-! ## Trees -/

def Tree.entries : {d : Nat} → Tree β d → List (Int × β)
  | 0, l => Leaf.entries l
  | _ + 1, n => (Inner.ch n).flatMap Tree.entries

/-- The children `cs` are separated by the keys `ss`. -/
def Chain (P : τ → Int → Int → Prop) : Int → List Int → List τ → Int → Prop
  | lo, [], [c], hi => P c lo hi
  | lo, s :: ss, c :: cs, hi => P c lo s ∧ Chain P s ss cs hi
  | _, _, _, _ => False

/-- The invariant of a tree (with at least one key). -/
def Tree.Inv (max : Nat) : {d : Nat} → Tree β d → Int → Int → Prop
  | 0, l, lo, hi => LeafOk l lo hi ∧ 0 < (Leaf.keys l).size ∧ (Leaf.keys l).size ≤ max
  | d + 1, n, lo, hi => (Inner.keys n).Wf ∧ 0 < (Inner.keys n).size ∧ (Inner.keys n).size ≤ max ∧ (Inner.keys n).list.Pairwise (· < ·) ∧
      Chain (fun (c : Tree β d) a b => c.Inv max a b) lo (Inner.keys n).list (Inner.ch n) hi

section chain
variable {P : τ → Int → Int → Prop}

theorem chain_length {lo hi : Int} {ss : List Int} {cs : List τ} (h : Chain P lo ss cs hi) : cs.length = ss.length + 1 := by
  induction ss generalizing lo cs with
  | nil =>
    match cs, h with
    | [c], _ => rfl
  | cons s ss ih =>
    match cs, h with
    | c :: cs, h => simp [ih h.2]

theorem chain_append {lo hi s : Int} {ss ss' : List Int} {cs cs' : List τ} (h1 : Chain P lo ss cs s) (h2 : Chain P s ss' cs' hi) :
    Chain P lo (ss ++ s :: ss') (cs ++ cs') hi := by
  induction ss generalizing lo cs with
  | nil =>
    match cs, h1 with
    | [c], h1 => exact ⟨h1, h2⟩
  | cons a ss ih =>
    match cs, h1 with
    | c :: cs, h1 => exact ⟨h1.1, ih h1.2⟩

theorem chain_split {lo hi : Int} {ss : List Int} {cs : List τ} (h : Chain P lo ss cs hi) {i : Nat} (hi' : i < ss.length) :
    Chain P lo (ss.take i) (cs.take (i + 1)) ss[i] ∧ Chain P ss[i] (ss.drop (i + 1)) (cs.drop (i + 1)) hi := by
  induction ss generalizing lo cs i with
  | nil => simp at hi'
  | cons a ss ih =>
    match cs, h with
    | c :: cs, h =>
      cases i with
      | zero => simp only [List.take_zero, List.getElem_cons_zero, List.drop_succ_cons, List.drop_zero, List.take_succ_cons]; exact ⟨h.1, h.2⟩
      | succ i =>
        have := ih h.2 (i := i) (by simpa using hi')
        simp only [List.take_succ_cons, List.getElem_cons_succ, List.drop_succ_cons]
        exact ⟨⟨h.1, this.1⟩, this.2⟩

theorem chain_lo {lo lo' hi : Int} {ss : List Int} {c : τ} {cs : List τ} (h : Chain P lo ss (c :: cs) hi) (hc : ∀ x, P c lo x → P c lo' x) :
    Chain P lo' ss (c :: cs) hi := by
  match ss, cs, h with
  | [], [], h => exact hc _ h
  | s :: ss, cs, h => exact ⟨hc _ h.1, h.2⟩

theorem chain_hi {lo hi hi' : Int} {ss : List Int} {c : τ} {cs : List τ} (h : Chain P lo ss cs hi) (hl : cs[ss.length]? = some c)
    (hc : ∀ x, P c x hi → P c x hi') : Chain P lo ss cs hi' := by
  induction ss generalizing lo cs with
  | nil =>
    match cs, h with
    | [c'], h => simp at hl; subst hl; exact hc _ h
  | cons s ss ih =>
    match cs, h with
    | c' :: cs, h => exact ⟨h.1, ih h.2 (by simpa using hl)⟩

variable (f : τ → List (Int × β)) (hP : ∀ c lo hi, P c lo hi → lo < hi ∧ ∀ e ∈ f c, lo < e.1 ∧ e.1 ≤ hi)

include hP in
theorem chain_bounds {lo hi : Int} {ss : List Int} {cs : List τ} (h : Chain P lo ss cs hi) :
    lo < hi ∧ ∀ e ∈ cs.flatMap f, lo < e.1 ∧ e.1 ≤ hi := by
  induction ss generalizing lo cs with
  | nil =>
    match cs, h with
    | [c], h =>
      have := hP _ _ _ h
      exact ⟨this.1, by simpa using this.2⟩
  | cons s ss ih =>
    match cs, h with
    | c :: cs, h =>
      have h1 := hP _ _ _ h.1
      have h2 := ih h.2
      refine ⟨by omega, fun e he => ?_⟩
      rw [List.flatMap_cons, List.mem_append] at he
      rcases he with he | he
      · have := h1.2 e he; omega
      · have := h2.2 e he; omega

include hP in
theorem chain_sorted (hs : ∀ c lo hi, P c lo hi → (f c).Pairwise fun a b => a.1 < b.1) {lo hi : Int} {ss : List Int} {cs : List τ} (h : Chain P lo ss cs hi) :
    (cs.flatMap f).Pairwise fun a b => a.1 < b.1 := by
  induction ss generalizing lo cs with
  | nil =>
    match cs, h with
    | [c], h => simpa using hs _ _ _ h
  | cons s ss ih =>
    match cs, h with
    | c :: cs, h =>
      rw [List.flatMap_cons, List.pairwise_append]
      refine ⟨hs _ _ _ h.1, ih h.2, fun a ha b hb => ?_⟩
      have h1 := (hP _ _ _ h.1).2 a ha
      have h2 := (chain_bounds f hP h.2).2 b hb
      omega

/-- One child of a chain. -/
structure Focus (P : τ → Int → Int → Prop) (f : τ → List (Int × β)) (lo : Int) (ss : List Int) (cs : List τ) (hi : Int) (p : Nat) (c : τ) (lo' hi' : Int)
    (pre post : List (Int × β)) : Prop where
  get : cs[p]? = some c
  ok : P c lo' hi'
  lower : lo' = (ss.take p).getLast?.getD lo
  upper : hi' = (ss.drop p).head?.getD hi
  pre_le : ∀ e ∈ pre, e.1 ≤ lo'
  post_gt : ∀ e ∈ post, hi' < e.1
  entries : cs.flatMap f = pre ++ (f c ++ post)
  set : ∀ c', (cs.set p c').flatMap f = pre ++ (f c' ++ post)
  setOk : ∀ c', P c' lo' hi' → Chain P lo ss (cs.set p c') hi
  ins : ∀ c1 c2, (insertAt (cs.set p c1) (p + 1) c2).flatMap f = pre ++ (f c1 ++ (f c2 ++ post))
  insOk : ∀ s c1 c2, P c1 lo' s → P c2 s hi' → Chain P lo (insertAt ss p s) (insertAt (cs.set p c1) (p + 1) c2) hi

include hP in
theorem chain_focus {lo hi : Int} {ss : List Int} {cs : List τ} (h : Chain P lo ss cs hi) {p : Nat} (hp : p ≤ ss.length) :
    ∃ c lo' hi' pre post, Focus P f lo ss cs hi p c lo' hi' pre post := by
  induction p generalizing lo ss cs with
  | zero =>
    match ss, cs, h with
    | [], [c], h =>
      exact ⟨c, lo, hi, [], [], rfl, h, rfl, rfl, by simp, by simp, by simp, by simp, fun c' h' => h', by simp [insertAt], fun s c1 c2 h1 h2 => ⟨h1, h2⟩⟩
    | s :: ss, c :: cs, h =>
      refine ⟨c, lo, s, [], cs.flatMap f, rfl, h.1, rfl, rfl, by simp, fun e he => ?_, by simp, by simp, fun c' h' => ⟨h', h.2⟩,
        by simp [insertAt], fun x c1 c2 h1 h2 => ⟨h1, h2, h.2⟩⟩
      have := (chain_bounds f hP h.2).2 e he
      omega
  | succ p ih =>
    match ss, cs, h with
    | s :: ss, c :: cs, h =>
      obtain ⟨c0, lo', hi', pre, post, F⟩ := ih h.2 (by simpa using hp)
      have hlo : s ≤ lo' := by
        rw [F.lower]
        have hh := h.2
        have hp' : p ≤ ss.length := by simpa using hp
        clear F ih
        cases hl : (ss.take p).getLast? with
        | none => simp
        | some x =>
          simp only [Option.getD_some]
          rw [List.getLast?_eq_getElem?] at hl
          have hlt : p - 1 < ss.length := by
            have := (List.getElem?_eq_some_iff.1 hl).1
            rw [List.length_take] at this; omega
          rw [List.length_take, Nat.min_eq_left hp', List.getElem?_take] at hl
          split at hl
          · rw [List.getElem?_eq_getElem hlt] at hl
            cases hl
            exact Int.le_of_lt (chain_bounds f hP (chain_split hh hlt).1).1
          · cases hl
      refine ⟨c0, lo', hi', f c ++ pre, post, by simpa using F.get, F.ok, ?_, by simpa using F.upper, ?_, F.post_gt, ?_, ?_, ?_, ?_, ?_⟩
      · rw [F.lower, List.take_succ_cons, List.getLast?_cons]; simp
      · intro e he
        rcases List.mem_append.1 he with he | he
        · have := ((hP _ _ _ h.1).2 e he).2; omega
        · exact F.pre_le e he
      · rw [List.flatMap_cons, F.entries]; simp
      · intro c'; rw [List.set_cons_succ, List.flatMap_cons, F.set]; simp
      · intro c' h'; exact ⟨h.1, F.setOk c' h'⟩
      · intro c1 c2
        have := F.ins c1 c2
        simp only [List.set_cons_succ]
        rw [show insertAt (c :: cs.set p c1) (p + 1 + 1) c2 = c :: insertAt (cs.set p c1) (p + 1) c2 by simp [insertAt]]
        rw [List.flatMap_cons, this]; simp
      · intro x c1 c2 h1 h2
        have := F.insOk x c1 c2 h1 h2
        simp only [List.set_cons_succ]
        rw [show insertAt (c :: cs.set p c1) (p + 1 + 1) c2 = c :: insertAt (cs.set p c1) (p + 1) c2 by simp [insertAt],
          show insertAt (s :: ss) (p + 1) x = s :: insertAt ss p x by simp [insertAt]]
        exact ⟨h.1, this⟩

end chain

variable {max : Nat}

theorem LeafOk.first_mem {l : Leaf β} {lo hi} (_ : LeafOk l lo hi) (hn : 0 < l.keys.size) : l.keys.first ∈ l.keys.list := List.mem_of_getElem? (Keys.first_eq hn)
theorem LeafOk.largest_mem {l : Leaf β} {lo hi} (_ : LeafOk l lo hi) (hn : 0 < l.keys.size) : l.keys.largest ∈ l.keys.list := List.mem_of_getElem? (Keys.largest_eq hn)

theorem Tree.Inv.bounds {d : Nat} {t : Tree β d} {lo hi : Int} (h : t.Inv max lo hi) : lo < hi ∧ ∀ e ∈ t.entries, lo < e.1 ∧ e.1 ≤ hi := by
  induction d generalizing lo hi with
  | zero =>
    have := h.1.bounds _ (h.1.first_mem h.2.1)
    exact ⟨by omega, fun e he => h.1.mem he⟩
  | succ d ih => exact chain_bounds Tree.entries (fun c lo hi h => ih h) h.2.2.2.2

theorem Tree.Inv.sorted {d : Nat} {t : Tree β d} {lo hi : Int} (h : t.Inv max lo hi) : t.entries.Pairwise fun a b => a.1 < b.1 := by
  induction d generalizing lo hi with
  | zero => exact h.1.entries_sorted
  | succ d ih => exact chain_sorted Tree.entries (fun c lo hi h => Tree.Inv.bounds h) (fun c lo hi h => ih h) h.2.2.2.2

/-- The smallest and the largest key are in the bounds. -/
theorem Tree.Inv.ends {d : Nat} {t : Tree β d} {lo hi : Int} (h : t.Inv max lo hi) : (lo < t.smallest ∧ t.smallest ≤ hi) ∧ lo < t.largest ∧ t.largest ≤ hi := by
  induction d generalizing lo hi with
  | zero => exact ⟨h.1.bounds _ (h.1.first_mem h.2.1), h.1.bounds _ (h.1.largest_mem h.2.1)⟩
  | succ d ih =>
    have hc := h.2.2.2.2
    obtain ⟨c, lo', hi', pre, post, F⟩ := chain_focus Tree.entries (fun c lo hi h => Tree.Inv.bounds h) hc (Nat.zero_le _)
    obtain ⟨c2, lo2, hi2, pre2, post2, F2⟩ := chain_focus Tree.entries (fun c lo hi h => Tree.Inv.bounds h) hc (Nat.le_refl _)
    have e1 := ih F.ok
    have e2 := ih F2.ok
    have u1 := F.lower
    have u2 := F2.upper
    simp at u1 u2
    subst u1 u2
    have hn : 0 < (Inner.keys t).size := h.2.1
    -- the bounds of the inner separators
    have hm : ∀ x ∈ (Inner.keys t).list, lo' < x ∧ x < hi2 := by
      intro x hx
      obtain ⟨i, hi', e⟩ := List.mem_iff_getElem.1 hx
      have := chain_split hc hi'
      have b1 := (chain_bounds Tree.entries (fun c lo hi h => Tree.Inv.bounds h) this.1).1
      have b2 := (chain_bounds Tree.entries (fun c lo hi h => Tree.Inv.bounds h) this.2).1
      rw [e] at b1 b2
      exact ⟨b1, b2⟩
    have s1 : t.smallest = c.smallest := by
      have := F.get
      show (match (Inner.ch t)[0]? with | some c => Tree.smallest c | none => 0) = _
      rw [this]
    have s2 : t.largest = c2.largest := by
      have := F2.get
      rw [Keys.list_length] at this
      show (match (Inner.ch t)[(Inner.keys t).size]? with | some c => Tree.largest c | none => 0) = _
      rw [this]
    have h1 : hi' ≤ hi2 := by
      rw [F.upper]
      cases hl : (List.drop 0 (Inner.keys t).list).head? with
      | none => simp
      | some x =>
        have : x ∈ (Inner.keys t).list := by rw [List.drop_zero] at hl; exact List.mem_of_mem_head? hl
        have := hm x this
        simp; omega
    have h2 : lo' ≤ lo2 := by
      rw [F2.lower]
      cases hl : ((Inner.keys t).list.take (Inner.keys t).list.length).getLast? with
      | none => simp
      | some x =>
        have : x ∈ (Inner.keys t).list := by rw [List.take_length] at hl; exact List.mem_of_mem_getLast? hl
        have := hm x this
        simp; omega
    rw [s1, s2]
    omega

theorem Tree.Inv.lo {d : Nat} {t : Tree β d} {lo lo' hi : Int} (h : t.Inv max lo hi) (hl : lo' < t.smallest) : t.Inv max lo' hi := by
  induction d generalizing lo hi with
  | zero =>
    refine ⟨⟨h.1.wf, h.1.len, h.1.sorted, fun x hx => ⟨?_, (h.1.bounds x hx).2⟩⟩, h.2⟩
    have hl : lo' < (Leaf.keys t).first := hl
    have hf := Keys.first_eq h.2.1
    obtain ⟨i, hi', e⟩ := List.mem_iff_getElem.1 hx
    cases i with
    | zero =>
      rw [List.getElem?_eq_getElem hi', e] at hf
      have := Option.some.inj hf
      omega
    | succ i =>
      have := List.pairwise_iff_getElem.1 h.1.sorted 0 (i + 1) (by omega) hi' (by omega)
      rw [List.getElem?_eq_getElem (by omega)] at hf
      have := Option.some.inj hf
      omega
  | succ d ih =>
    obtain ⟨h1, h2, h3, h4, h5⟩ := h
    refine ⟨h1, h2, h3, h4, ?_⟩
    have hl : lo' < (match (Inner.ch t)[0]? with | some c => Tree.smallest c | none => 0) := hl
    cases hc : Inner.ch t with
    | nil => have := chain_length h5; rw [hc] at this; simp at this
    | cons c cs =>
      rw [hc] at h5 hl
      exact chain_lo h5 fun x hx => ih hx hl

theorem Tree.Inv.hi {d : Nat} {t : Tree β d} {lo hi hi' : Int} (h : t.Inv max lo hi) (hl : t.largest ≤ hi') : t.Inv max lo hi' := by
  induction d generalizing lo hi with
  | zero =>
    refine ⟨⟨h.1.wf, h.1.len, h.1.sorted, fun x hx => ⟨(h.1.bounds x hx).1, ?_⟩⟩, h.2⟩
    have hl : (Leaf.keys t).largest ≤ hi' := hl
    have hf := Keys.largest_eq h.2.1
    obtain ⟨i, hi', e⟩ := List.mem_iff_getElem.1 hx
    have hi2 := hi'
    rw [Keys.list_length] at hi2
    have hn := h.2.1
    rw [List.getElem?_eq_getElem (by simp; omega)] at hf
    have hf := Option.some.inj hf
    by_cases hlast : i = (Leaf.keys t).size - 1
    · subst hlast; omega
    · have := List.pairwise_iff_getElem.1 h.1.sorted i ((Leaf.keys t).size - 1) (by omega) (by simp; omega) (by omega)
      omega
  | succ d ih =>
    obtain ⟨h1, h2, h3, h4, h5⟩ := h
    refine ⟨h1, h2, h3, h4, ?_⟩
    have hl : (match (Inner.ch t)[(Inner.keys t).size]? with | some c => Tree.largest c | none => 0) ≤ hi' := hl
    cases hc : (Inner.ch t)[(Inner.keys t).size]? with
    | none =>
      have := chain_length h5
      rw [List.getElem?_eq_none_iff, this, Keys.list_length] at hc
      omega
    | some c =>
      rw [hc] at hl
      exact chain_hi h5 (by rw [Keys.list_length]; exact hc) fun x hx => ih hx hl

/-! ## Lookup -/

theorem Where.Spec.index_bounds {w : Where} {l : List Int} {key : Int} (h : w.Spec l key) (hs : l.Pairwise (· < ·)) :
    w.index ≤ l.length ∧ (∀ x ∈ l.take w.index, x < key) ∧ ∀ x ∈ l.drop w.index, key ≤ x := by
  cases w with
  | ins p => exact ⟨h.1, h.2.1, fun x hx => Int.le_of_lt (h.2.2 x hx)⟩
  | found p =>
    have h : l[p]? = some key := h
    obtain ⟨hp, e⟩ := List.getElem?_eq_some_iff.1 h
    refine ⟨Nat.le_of_lt hp, fun x hx => ?_, fun x hx => ?_⟩
    · obtain ⟨i, hi, e'⟩ := mem_take_iff.1 hx
      obtain ⟨hi', e'⟩ := List.getElem?_eq_some_iff.1 e'
      have := List.pairwise_iff_getElem.1 hs i p hi' hp hi
      omega
    · obtain ⟨i, hi, e'⟩ := mem_drop_iff.1 hx
      obtain ⟨hi', e'⟩ := List.getElem?_eq_some_iff.1 e'
      have hi : p ≤ i := hi
      by_cases hip : i = p
      · subst hip; omega
      · have := List.pairwise_iff_getElem.1 hs p i hp hi' (by omega)
        omega

theorem focus_key {P : τ → Int → Int → Prop} {f : τ → List (Int × β)} {lo hi key lo' hi' : Int} {ss cs p c pre post}
    (F : Focus P f lo ss cs hi p c lo' hi' pre post) (hk : lo < key ∧ key ≤ hi) (h1 : ∀ x ∈ ss.take p, x < key) (h2 : ∀ x ∈ ss.drop p, key ≤ x) :
    lo' < key ∧ key ≤ hi' := by
  rw [F.lower, F.upper]
  constructor
  · cases hl : (ss.take p).getLast? with
    | none => exact hk.1
    | some x => exact h1 x (List.mem_of_mem_getLast? hl)
  · cases hl : (ss.drop p).head? with
    | none => exact hk.2
    | some x => exact h2 x (List.mem_of_mem_head? hl)

theorem Tree.get_spec {d : Nat} {t : Tree β d} {lo hi key : Int} (h : t.Inv max lo hi) (hk : lo < key ∧ key ≤ hi) : t.get key = find key t.entries := by
  induction d generalizing lo hi with
  | zero =>
    have h1 := h.1
    have S := Keys.pos_spec h1.wf h1.sorted key
    show (match (Leaf.keys t).pos key with | .found p => (Leaf.vals t)[p]? | .ins _ => none) = find key (Leaf.entries t)
    cases hp : (Leaf.keys t).pos key with
    | found p =>
      rw [hp] at S
      have S : (Leaf.keys t).list[p]? = some key := S
      have hps : p < (Leaf.keys t).size := by have := (List.getElem?_eq_some_iff.1 S).1; simpa using this
      have hpv : p < (Leaf.vals t).length := by rw [h1.len]; exact hps
      simp only
      rw [List.getElem?_eq_getElem hpv]
      unfold find
      have hmem : ((Leaf.keys t).list[p]'(by simpa using hps), (Leaf.vals t)[p]) ∈ Leaf.entries t := by
        refine List.mem_iff_getElem.2 ⟨p, by rw [h1.entries_length]; exact hps, ?_⟩
        simp [Leaf.entries]
      have hkey : (Leaf.keys t).list[p]'(by simpa using hps) = key := by
        rw [List.getElem?_eq_getElem (by simpa using hps)] at S; exact Option.some.inj S
      rw [hkey] at hmem
      have hfind : (Leaf.entries t).find? (fun e => decide (e.1 = key)) = some (key, (Leaf.vals t)[p]) := by
        have hsrt := h1.entries_sorted
        generalize Leaf.entries t = L at hmem hsrt
        clear hkey S
        induction L with
        | nil => simp at hmem
        | cons a L ih =>
          rw [List.pairwise_cons] at hsrt
          rw [List.find?_cons]
          rcases List.mem_cons.1 hmem with e | hm
          · rw [← e]; simp
          · have := hsrt.1 _ hm
            rw [decide_eq_false (by omega)]
            exact ih hm hsrt.2
      rw [hfind]; rfl
    | ins p =>
      rw [hp] at S
      simp only
      symm
      unfold find
      rw [Option.map_eq_none_iff, List.find?_eq_none]
      intro e he
      have : e.1 ∈ (Leaf.keys t).list := by rw [← h1.fst]; exact List.mem_map.2 ⟨e, he, rfl⟩
      rw [← List.take_append_drop p (Leaf.keys t).list, List.mem_append] at this
      rcases this with h' | h'
      · have := S.2.1 _ h'; simp; omega
      · have := S.2.2 _ h'; simp; omega
  | succ d ih =>
    obtain ⟨h1, h2, h3, h4, h5⟩ := h
    have S := (Keys.pos_spec h1 h4 key).index_bounds h4
    obtain ⟨c, lo', hi', pre, post, F⟩ := chain_focus Tree.entries (fun c lo hi h => Tree.Inv.bounds h) h5 S.1
    have hk' := focus_key F hk S.2.1 S.2.2
    show (match (Inner.ch t)[((Inner.keys t).pos key).index]? with | some c => Tree.get c key | none => none) = find key ((Inner.ch t).flatMap Tree.entries)
    rw [F.get, F.entries, find_skip (fun e he => by have := F.pre_le e he; omega) (fun e he => by have := F.post_gt e he; omega)]
    exact ih F.ok hk'

end Trident.BTree
