import Verif.Join.Hash
/-! # The hash join: proofs about the map -/
namespace Trident.Join

theorem mapM_some {α β : Type} {f : α → Option β} {g : α → β} : ∀ {l : List α}, (∀ x ∈ l, f x = some (g x)) → l.mapM f = some (l.map g)
  | [], _ => rfl
  | x :: l, h => by
    rw [List.mapM_cons, h x (by simp), mapM_some (l := l) fun y hy => h y (by simp [hy])]
    rfl

/-- Rows are next to each other in the array if they have the same key. -/
def Grouped {α β : Type} (K : α → β) (l : List α) : Prop :=
  ∀ a x b y c, l = a ++ x :: b ++ y :: c → K x = K y → ∀ z ∈ b, K z = K x

/-! ## The groups -/

abbrev Grp := List Nat × List (List Nat)

def encG (g : Grp) : List Nat := g.2.length :: g.2.flatten

def encGs (G : List Grp) : List Nat := G.flatMap encG

theorem encGs_append (a b : List Grp) : encGs (a ++ b) = encGs a ++ encGs b := by simp [encGs]

/-- The keys with the positions of their groups. -/
def offs : List Grp → Nat → List (List Nat × Nat)
  | [], _ => []
  | g :: G, o => (g.1, o) :: offs G (o + (encG g).length)

theorem offs_append : ∀ (a b : List Grp) (o : Nat), offs (a ++ b) o = offs a o ++ offs b (o + (encGs a).length)
  | [], b, o => by simp [offs, encGs]
  | g :: a, b, o => by
    simp only [List.cons_append, offs, offs_append a b]
    rw [show o + (encG g).length + (encGs a).length = o + (encGs (g :: a)).length by simp [encGs]; omega]

theorem offs_keys : ∀ (G : List Grp) (o : Nat), (offs G o).map Prod.fst = G.map Prod.fst
  | [], _ => rfl
  | g :: G, o => by simp [offs, offs_keys G]

theorem lookup_offs {g : Grp} : ∀ {a b : List Grp} {o : Nat}, g.1 ∉ a.map Prod.fst → (offs (a ++ g :: b) o).lookup g.1 = some (o + (encGs a).length)
  | [], b, o, _ => by simp [offs, encGs]
  | x :: a, b, o, h => by
    simp only [List.map_cons, List.mem_cons, not_or] at h
    have : (g.1 == x.1) = false := by simpa using h.1
    simp only [List.cons_append, offs, List.lookup_cons, this]
    rw [lookup_offs h.2]
    simp [encGs]
    omega

theorem lookup_offs_none {k : List Nat} : ∀ {G : List Grp} {o : Nat}, k ∉ G.map Prod.fst → (offs G o).lookup k = none
  | [], _, _ => rfl
  | x :: a, o, h => by
    simp only [List.map_cons, List.mem_cons, not_or] at h
    have : (k == x.1) = false := by simpa using h.1
    simp only [offs, List.lookup_cons, this]
    exact lookup_offs_none h.2

theorem flatten_length {size : Nat} : ∀ {L : List (List Nat)}, (∀ x ∈ L, x.length = size) → L.flatten.length = L.length * size
  | [], _ => by simp
  | x :: L, h => by
    rw [List.flatten_cons, List.length_append, h x (by simp), flatten_length fun y hy => h y (by simp [hy]), List.length_cons, Nat.succ_mul, Nat.add_comm]

/-- A row in the concatenation of the rows. -/
theorem slice_flatten {size : Nat} (z : List Nat) : ∀ {L : List (List Nat)}, (∀ x ∈ L, x.length = size) → ∀ (p : List Nat) (i : Nat) (h : i < L.length),
    slice (p ++ (L.flatten ++ z)) size (p.length + i * size) = some L[i]
  | [], _, _, _, h => by simp at h
  | x :: L, hL, p, 0, _ => by
    have hx := hL x (by simp)
    unfold slice
    rw [if_pos (by simp; omega)]
    rw [show p.length + 0 * size = p.length by omega, List.drop_left, List.flatten_cons, List.append_assoc, List.take_append_of_le_length (by omega),
      List.take_of_length_le (by omega)]
    rfl
  | x :: L, hL, p, i + 1, h => by
    have hx := hL x (by simp)
    have := slice_flatten z (L := L) (fun y hy => hL y (by simp [hy])) (p ++ x) i (by simpa using h)
    rw [List.length_append, hx] at this
    rw [show p.length + (i + 1) * size = p.length + size + i * size by rw [Nat.succ_mul]; omega]
    simpa using this

/-- What the groups say is what is found. -/
theorem probe_groups {size : Nat} {G : List Grp} (hn : (G.map Prod.fst).Nodup) (hs : ∀ g ∈ G, ∀ x ∈ g.2, x.length = size) {k : List Nat} (hk : reserved k = false) :
    probe ⟨encGs G, offs G 0, size⟩ k = some (((G.find? fun g => g.1 == k).map Prod.snd).getD []) := by
  unfold probe
  rw [if_neg (by simp [hk])]
  cases hf : G.find? (fun g => g.1 == k) with
  | none =>
    have : k ∉ G.map Prod.fst := by
      intro hm
      obtain ⟨g, hg, he⟩ := List.mem_map.1 hm
      exact absurd (List.find?_eq_none.1 hf g hg) (by simp [he])
    rw [lookup_offs_none this]
    rfl
  | some g =>
    have hk' : g.1 = k := by simpa using List.find?_some hf
    have hg := List.mem_of_find?_eq_some hf
    obtain ⟨a, b, rfl⟩ := List.append_of_mem hg
    have hna : g.1 ∉ a.map Prod.fst := by
      rw [List.map_append, List.nodup_append] at hn
      intro hm
      exact hn.2.2 g.1 hm g.1 (by simp) rfl
    rw [← hk', lookup_offs hna]
    simp only [Nat.zero_add]
    have hv : encGs (a ++ g :: b) = encGs a ++ (g.2.length :: (g.2.flatten ++ encGs b)) := by simp [encGs, encG]
    rw [hv]
    have h1 : (encGs a ++ (g.2.length :: (g.2.flatten ++ encGs b)))[(encGs a).length]? = some g.2.length := by
      rw [List.getElem?_append_right (by omega)]
      simp
    rw [h1]
    simp only [Option.bind_some, Option.map_some, Option.getD_some]
    rw [mapM_some (g := fun i => g.2.getD i []) (fun i hi => ?_)]
    · congr 1
      apply List.ext_getElem
      · simp
      · intro i h1 h2
        simp at h1 ⊢
        simp [h1]
    · have hi' := List.mem_range.1 hi
      have := slice_flatten (encGs b) (hs g (by simp)) (encGs a ++ [g.2.length]) i hi'
      simp only [List.append_assoc, List.singleton_append, List.length_append, List.length_singleton] at this
      rw [this]
      simp [hi']

/-! ## The loop -/

/-- The state in the loop: closed groups, and the rows of the group that is being filled. -/
structure FInv (K : Nat → List Nat) (R : Nat → List Nat) (size : Nat) (done : List Nat) (G : List Grp) (C : List (List Nat)) (s : Fill) : Prop where
  vals : s.vals = encGs G ++ (1 :: C.flatten)
  begin : s.begin = (encGs G).length
  map : s.map = offs G 0
  rows : (∀ g ∈ G, ∀ x ∈ g.2, x.length = size) ∧ ∀ x ∈ C, x.length = size
  ne : C ≠ []
  nodup : (G.map Prod.fst).Nodup
  prev : s.prev ∉ G.map Prod.fst
  res : ∀ g ∈ G, reserved g.1 = false
  groups : ∀ g ∈ G, g.2 = (done.filter fun r => K r == g.1).map R
  cur : C = (done.filter fun r => K r == s.prev).map R
  all : ∀ r ∈ done, K r = s.prev ∨ K r ∈ G.map Prod.fst
  last : ∃ d r, done = d ++ [r] ∧ K r = s.prev
  gne : ∀ g ∈ G, g.2 ≠ []

theorem shut_spec {K R : Nat → List Nat} {size : Nat} {done : List Nat} {G : List Grp} {C : List (List Nat)} {s : Fill} (h : FInv K R size done G C s)
    (hsz : 0 < size) (hres : reserved s.prev = false) : s.shut size = some { s with map := offs (G ++ [(s.prev, C)]) 0, vals := encGs (G ++ [(s.prev, C)]) } := by
  have hany : (s.map.any fun e => e.1 == s.prev) = false := by
    rw [List.any_eq_false]
    intro e he hk
    apply h.prev
    have : e.1 ∈ (offs G 0).map Prod.fst := List.mem_map_of_mem (by rw [← h.map]; exact he)
    rw [offs_keys] at this
    have hk' : e.1 = s.prev := by simpa using hk
    rwa [hk'] at this
  have hlen : (s.vals.length - s.begin - 1) / size = C.length := by
    rw [h.vals, h.begin, List.length_append, List.length_cons, flatten_length h.rows.2]
    rw [show (encGs G).length + (C.length * size + 1) - (encGs G).length - 1 = C.length * size by omega]
    exact Nat.mul_div_cancel _ hsz
  unfold Fill.shut
  rw [if_neg (by simp [hres]; omega)]
  simp only [hany, hlen]
  have hpos : 0 < C.length := List.length_pos_iff.2 h.ne
  have hv : (if C.length > 1 then s.vals.set s.begin C.length else s.vals) = encGs (G ++ [(s.prev, C)]) := by
    rw [encGs_append]
    by_cases hc : C.length > 1
    · rw [if_pos hc, h.vals, h.begin, List.set_append_right _ _ (Nat.le_refl _)]
      simp [encGs, encG]
    · rw [if_neg hc, h.vals]
      have : C.length = 1 := by omega
      simp [encGs, encG, this]
  rw [hv]
  simp [offs_append, offs, h.map, h.begin]

theorem filter_snoc_ne {K R : Nat → List Nat} {done : List Nat} {r : Nat} {k : List Nat} (h : K r ≠ k) :
    ((done ++ [r]).filter fun x => K x == k).map R = (done.filter fun x => K x == k).map R := by
  rw [List.filter_append]
  have : (K r == k) = false := by simpa using h
  simp [this]

theorem fillLoop_spec {K R : Nat → List Nat} {key row : Nat → Option (List Nat)} {size : Nat} (hsz : 0 < size) : ∀ {rs done : List Nat} {G : List Grp} {C : List (List Nat)} {s : Fill},
    FInv K R size done G C s → (∀ r ∈ done ++ rs, key r = some (K r) ∧ row r = some (R r) ∧ (R r).length = size ∧ reserved (K r) = false) →
    Grouped K (done ++ rs) → ∃ G' C' s', fillLoop key row size rs s = some s' ∧ FInv K R size (done ++ rs) G' C' s'
  | [], done, G, C, s, h, _, _ => ⟨G, C, s, rfl, by simpa using h⟩
  | r :: rs, done, G, C, s, h, hr, hg => by
    obtain ⟨k1, k2, k3, k4⟩ := hr r (by simp)
    have hassoc : done ++ r :: rs = (done ++ [r]) ++ rs := by simp
    unfold fillLoop
    simp only [k1, k2, Option.bind_eq_bind, Option.bind_some]
    by_cases hk : K r = s.prev
    · rw [if_pos hk]
      simp only [Option.bind_some]
      have h' : FInv K R size (done ++ [r]) G (C ++ [R r]) { s with vals := s.vals ++ R r } := by
        refine ⟨by simp [h.vals], h.begin, h.map, ⟨h.rows.1, ?_⟩, by simp, h.nodup, h.prev, h.res, ?_, ?_, ?_, ⟨done, r, rfl, hk⟩, h.gne⟩
        · intro x hx
          rcases List.mem_append.1 hx with hx | hx
          · exact h.rows.2 x hx
          · rw [List.mem_singleton.1 hx]; exact k3
        · intro g hgm
          rw [filter_snoc_ne (fun he => h.prev (by rw [← hk, he]; exact List.mem_map_of_mem hgm))]
          exact h.groups g hgm
        · rw [List.filter_append]
          have : (K r == s.prev) = true := by simpa using hk
          simp only [List.filter_cons, List.filter_nil, this, if_true, List.map_append, List.map_cons, List.map_nil]
          rw [← h.cur]
        · intro x hx
          rcases List.mem_append.1 hx with hx | hx
          · exact h.all x hx
          · rw [List.mem_singleton.1 hx]; exact .inl hk
      obtain ⟨G', C', s', e1, e2⟩ := fillLoop_spec hsz h' (by rw [← hassoc]; exact hr) (by rw [← hassoc]; exact hg)
      exact ⟨G', C', s', e1, by rw [hassoc]; exact e2⟩
    · rw [if_neg hk]
      obtain ⟨d, l, hd, hl⟩ := h.last
      have hpr : reserved s.prev = false := by
        have := (hr l (by rw [hd]; simp)).2.2.2
        rwa [hl] at this
      rw [shut_spec h hsz hpr]
      simp only [Option.map_some, Option.bind_some]
      have hnew : K r ∉ G.map Prod.fst := by
        intro hm
        obtain ⟨g, hgm, hge⟩ := List.mem_map.1 hm
        -- a row of this key was read, then one of another key
        have hgr := h.groups g hgm
        have : ∃ x ∈ done, K x = g.1 := by
          by_cases hempty : (done.filter fun r => K r == g.1) = []
          · exfalso
            -- every group has a row
            have hne : ∀ g ∈ G, g.2 ≠ [] := h.gne
            exact hne g hgm (by rw [hgr, hempty]; rfl)
          · obtain ⟨x, hx⟩ := List.exists_mem_of_ne_nil _ hempty
            obtain ⟨h1, h2⟩ := List.mem_filter.1 hx
            exact ⟨x, h1, by simpa using h2⟩
        obtain ⟨x, hx, hxk⟩ := this
        rw [hd] at hx
        rcases List.mem_append.1 hx with hx | hx
        · obtain ⟨a, b, hab⟩ := List.append_of_mem hx
          have := hg a x (b ++ [l]) r rs (by rw [hd, hab]; simp) (by rw [hxk, hge]) l (by simp)
          apply hk
          rw [← hl, this, hxk, hge]
        · have hxl := List.mem_singleton.1 hx
          subst hxl
          apply hk
          rw [← hl, hxk, hge]
      have h' : FInv K R size (done ++ [r]) (G ++ [(s.prev, C)]) [R r]
          { s with map := offs (G ++ [(s.prev, C)]) 0, prev := K r, begin := (encGs (G ++ [(s.prev, C)])).length, vals := encGs (G ++ [(s.prev, C)]) ++ [1] ++ R r } := by
        refine ⟨by simp, rfl, rfl, ⟨?_, ?_⟩, by simp, ?_, ?_, ?_, ?_, ?_, ?_, ⟨done, r, rfl, rfl⟩, ?_⟩
        · intro g hgm
          rcases List.mem_append.1 hgm with hgm | hgm
          · exact h.rows.1 g hgm
          · rw [List.mem_singleton.1 hgm]; exact h.rows.2
        · intro x hx
          rw [List.mem_singleton.1 hx]; exact k3
        · rw [List.map_append, List.nodup_append]
          refine ⟨h.nodup, by simp, ?_⟩
          intro x hx y hy he
          simp at hy
          exact h.prev (by rw [← hy, ← he]; exact hx)
        · simp only [List.map_append, List.mem_append, List.map_cons, List.map_nil, List.mem_singleton, not_or]
          exact ⟨hnew, hk⟩
        · intro g hgm
          rcases List.mem_append.1 hgm with hgm | hgm
          · exact h.res g hgm
          · rw [List.mem_singleton.1 hgm]; exact hpr
        · intro g hgm
          rcases List.mem_append.1 hgm with hgm | hgm
          · rw [filter_snoc_ne (fun he => hnew (by rw [he]; exact List.mem_map_of_mem hgm))]
            exact h.groups g hgm
          · rw [List.mem_singleton.1 hgm, filter_snoc_ne hk]
            exact h.cur
        · show [R r] = ((done ++ [r]).filter fun x => K x == K r).map R
          rw [List.filter_append]
          have hz : (done.filter fun x => K x == K r) = [] := by
            rw [List.filter_eq_nil_iff]
            intro x hx he
            have he' : K x = K r := by simpa using he
            rcases h.all x hx with ha | ha
            · exact hk (by rw [← he', ha])
            · exact hnew (by rw [← he']; exact ha)
          simp [hz]
        · intro x hx
          simp only [List.map_append, List.mem_append, List.map_cons, List.map_nil, List.mem_singleton]
          rcases List.mem_append.1 hx with hx | hx
          · rcases h.all x hx with ha | ha
            · exact .inr (.inr ha)
            · exact .inr (.inl ha)
          · rw [List.mem_singleton.1 hx]; exact .inl rfl
        · intro g hgm
          rcases List.mem_append.1 hgm with hgm | hgm
          · exact h.gne g hgm
          · rw [List.mem_singleton.1 hgm]; exact h.ne
      obtain ⟨G', C', s', e1, e2⟩ := fillLoop_spec hsz h' (by rw [← hassoc]; exact hr) (by rw [← hassoc]; exact hg)
      exact ⟨G', C', s', e1, by rw [hassoc]; exact e2⟩

/-- `std::sort`: a permutation of the input, in the order of the keys. -/
def SortsKeys (srt : (Nat → List Nat) → List Nat → List Nat) : Prop :=
  ∀ K l, (srt K l).Perm l ∧ (srt K l).Pairwise fun a b => keyLt (K b) (K a) = false

theorem keyLt_between {n : Nat} (hn : n = 1 ∨ n = 2) {a b : List Nat} (ha : a.length = n) (hb : b.length = n) (h1 : keyLt b a = false) (h2 : keyLt a b = false) : b = a := by
  rcases hn with rfl | rfl
  · match a, b, ha, hb with
    | [x], [y], _, _ =>
      simp [keyLt] at h1 h2
      have : x = y := by omega
      rw [this]
  · match a, b, ha, hb with
    | [x, x'], [y, y'], _, _ =>
      simp only [keyLt] at h1 h2
      by_cases he : x = y
      · subst he
        simp at h1 h2
        have : x' = y' := by omega
        rw [this]
      · rw [if_neg (fun e => he e.symm)] at h1
        rw [if_neg he] at h2
        simp at h1 h2
        omega

theorem grouped_sorted {n : Nat} (hn : n = 1 ∨ n = 2) {K : Nat → List Nat} {l : List Nat} (hK : ∀ r ∈ l, (K r).length = n)
    (h : l.Pairwise fun a b => keyLt (K b) (K a) = false) : Grouped K l := by
  rintro a x b y c rfl he z hz
  have h1 : keyLt (K z) (K x) = false := by
    rw [List.append_assoc, List.pairwise_append] at h
    simp only [List.cons_append, List.pairwise_cons] at h
    exact h.2.1.1 z (by simp [hz])
  have h2 : keyLt (K y) (K z) = false := by
    rw [List.append_assoc, List.pairwise_append] at h
    simp only [List.cons_append, List.pairwise_cons] at h
    rw [List.pairwise_append] at h
    exact h.2.1.2.2.2 z hz y (by simp)
  rw [← he] at h2
  exact keyLt_between hn (hK x (by simp)) (hK z (by simp [hz])) h1 h2

/-- The rows of `L` are in `tmp` at the positions `idx`. -/
def Holds (size : Nat) (t : List Nat × List Nat) (L : List (List Nat)) : Prop :=
  t.2.map (slice t.1 size) = L.map some ∧ ∀ x ∈ L, x.length = size

theorem slice_length {l : List Nat} {size r : Nat} {x : List Nat} (h : slice l size r = some x) : x.length = size ∧ r + size ≤ l.length := by
  unfold slice at h
  split at h
  · cases h
    simp
    omega
  · cases h

theorem slice_get {l : List Nat} {size r f : Nat} {x : List Nat} (h : slice l size r = some x) (hf : f < size) : l[r + f]? = x[f]? := by
  unfold slice at h
  split at h
  · cases h
    rw [List.getElem?_take_of_lt hf, List.getElem?_drop]
  · cases h

/-- The key of a row. -/
def keyOf (fs x : List Nat) : List Nat := fs.map fun f => x.getD f 0

theorem mapM_key {l : List Nat} {size r : Nat} {x fs : List Nat} (h : slice l size r = some x) (hf : ∀ f ∈ fs, f < size) :
    (fs.mapM fun f => l[r + f]?) = some (keyOf fs x) := by
  apply mapM_some
  intro f hfm
  have hlt := hf f hfm
  have := (slice_length h).1
  rw [slice_get h hlt, List.getD_eq_getElem?_getD, List.getElem?_eq_getElem (by omega)]
  rfl

/-- `fillNextMap`: the map finds the rows of a key. -/
theorem fill_spec {srt : (Nat → List Nat) → List Nat → List Nat} (hs : SortsKeys srt) {fs : List Nat} (hn : fs.length = 1 ∨ fs.length = 2) {size : Nat}
    (hf : ∀ f ∈ fs, f < size) {t : List Nat × List Nat} {L : List (List Nat)} (hL : Holds size t L) (hne : L ≠ [])
    (hres : ∀ x ∈ L, reserved (keyOf fs x) = false) :
    ∃ (m : HMap) (L' : List (List Nat)), fill srt fs size t.1 t.2 = some m ∧ m.size = size ∧ L'.Perm L ∧
      ∀ k, reserved k = false → probe m k = some (L'.filter fun x => keyOf fs x == k) := by
  obtain ⟨tmp, idx⟩ := t
  obtain ⟨hL1, hL2⟩ := hL
  simp only at hL1
  have hsz : 0 < size := by
    cases fs with
    | nil => simp at hn
    | cons f fs => have := hf f (by simp); omega
  -- rows
  let R : Nat → List Nat := fun r => (slice tmp size r).getD []
  have hrow : ∀ r ∈ idx, slice tmp size r = some (R r) ∧ R r ∈ L := by
    intro r hr
    have : slice tmp size r ∈ L.map some := by rw [← hL1]; exact List.mem_map_of_mem hr
    obtain ⟨x, hx, he⟩ := List.mem_map.1 this
    simp only [R, ← he]
    exact ⟨rfl, hx⟩
  have hmapR : idx.map R = L := by
    have h1 : (idx.map (slice tmp size)).map (fun o => o.getD []) = (L.map some).map fun o => o.getD [] := by rw [hL1]
    simp only [List.map_map, Function.comp_def, Option.getD_some, List.map_id'] at h1
    exact h1
  let key : Nat → Option (List Nat) := fun r => fs.mapM fun f => tmp[r + f]?
  let K : Nat → List Nat := fun r => (key r).getD []
  have hkey : ∀ r ∈ idx, key r = some (K r) ∧ K r = keyOf fs (R r) := by
    intro r hr
    have := mapM_key (hrow r hr).1 hf
    simp only [K, key, this, Option.getD_some, and_self]
  obtain ⟨hp, hsort⟩ := hs K idx
  have hmem : ∀ r, r ∈ srt K idx ↔ r ∈ idx := fun r => hp.mem_iff
  have hgr : Grouped K (srt K idx) := grouped_sorted hn (fun r hr => by
    rw [(hkey r ((hmem r).1 hr)).2]
    simp [keyOf]) hsort
  unfold fill
  rw [if_pos hn]
  show ∃ (m : HMap) (L' : List (List Nat)), (match srt K idx with
    | [] => none
    | r :: rs => do
      let k ← key r
      let x ← slice tmp size r
      let s ← fillLoop key (slice tmp size) size rs ⟨k, 0, 1 :: x, []⟩
      let s ← s.shut size
      some (HMap.mk s.vals s.map size)) = some m ∧ _
  cases hsrt : srt K idx with
  | nil =>
    rw [hsrt] at hp
    have : idx = [] := hp.symm.eq_nil
    rw [this] at hmapR
    exact absurd hmapR.symm hne
  | cons r rs =>
    rw [hsrt] at hgr hmem
    have hfacts : ∀ r' ∈ [r] ++ rs, key r' = some (K r') ∧ slice tmp size r' = some (R r') ∧ (R r').length = size ∧ reserved (K r') = false := by
      intro r' hr'
      have hi := (hmem r').1 (by simpa using hr')
      refine ⟨(hkey r' hi).1, (hrow r' hi).1, hL2 _ (hrow r' hi).2, ?_⟩
      rw [(hkey r' hi).2]
      exact hres _ (hrow r' hi).2
    obtain ⟨f1, f2, f3, f4⟩ := hfacts r (by simp)
    simp only [f1, f2, Option.bind_eq_bind, Option.bind_some]
    have hinit : FInv K R size [r] [] [R r] ⟨K r, 0, 1 :: R r, []⟩ :=
      ⟨by simp [encGs], by simp [encGs], rfl, ⟨by simp, by simpa using f3⟩, by simp, by simp, by simp, by simp, by simp, by simp, by simp, ⟨[], r, rfl, rfl⟩, by simp⟩
    obtain ⟨G, C, s, e1, e2⟩ := fillLoop_spec hsz hinit hfacts (by simpa using hgr)
    rw [e1]
    simp only [Option.bind_some]
    have hpr : reserved s.prev = false := by
      obtain ⟨d, l, hd, hl⟩ := e2.last
      have := (hfacts l (by rw [hd]; simp)).2.2.2
      rwa [hl] at this
    rw [shut_spec e2 hsz hpr]
    refine ⟨_, (r :: rs).map R, rfl, rfl, ?_, ?_⟩
    · rw [← hmapR, ← hsrt]
      exact hp.map R
    · intro k hk
      rw [probe_groups _ _ hk]
      · congr 1
        have hall : ((r :: rs).map R).filter (fun x => keyOf fs x == k) = ((r :: rs).filter fun r => K r == k).map R := by
          rw [List.filter_map]
          congr 1
          apply List.filter_congr
          intro x hx
          simp only [Function.comp_apply]
          rw [(hkey x ((hmem x).1 hx)).2]
        rw [hall, List.find?_append]
        have hdone : [r] ++ rs = r :: rs := rfl
        cases hfnd : G.find? (fun g => g.1 == k) with
        | some g =>
          have hg := List.mem_of_find?_eq_some hfnd
          have hgk : g.1 = k := by simpa using List.find?_some hfnd
          simp only [Option.some_or, Option.map_some, Option.getD_some]
          rw [e2.groups g hg, hgk, hdone]
        | none =>
          simp only [Option.none_or, List.find?_cons, List.find?_nil]
          by_cases hpk : s.prev = k
          · have : (s.prev == k) = true := by simpa using hpk
            simp only [this, Option.map_some, Option.getD_some]
            rw [e2.cur, hpk, hdone]
          · have : (s.prev == k) = false := by simpa using hpk
            simp only [this, Option.map_none, Option.getD_none]
            symm
            rw [List.map_eq_nil_iff, List.filter_eq_nil_iff]
            intro x hx he
            have he' : K x = k := by simpa using he
            rcases e2.all x hx with ha | ha
            · exact hpk (by rw [← ha, he'])
            · obtain ⟨g, hg, hge⟩ := List.mem_map.1 ha
              exact absurd (List.find?_eq_none.1 hfnd g hg) (by simp [hge, he'])
      · rw [List.map_append, List.nodup_append]
        refine ⟨e2.nodup, by simp, ?_⟩
        intro x hx y hy he
        simp at hy
        exact e2.prev (by rw [← hy, ← he]; exact hx)
      · intro g hg
        rcases List.mem_append.1 hg with hg | hg
        · exact e2.rows.1 g hg
        · rw [List.mem_singleton.1 hg]; exact e2.rows.2

end Trident.Join
