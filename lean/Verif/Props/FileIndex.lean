import Verif.Tables.FileIndex
/-!
# C118: the index of a table file
-/
namespace Trident.FIdx

/-- What `decode_vlong` has to do with what `encode_vlong` wrote. -/
def Codec.Ok (C : Codec) : Prop := ∀ n r, C.dec (C.enc n ++ r) = some (n, r)

/-- Within a file, keys and positions do not decrease; files are numbers of two bytes. -/
def Rising : List Entry → Prop
  | [] => True
  | [e] => e.file < 65536
  | e :: e' :: l => e.file < 65536 ∧ (e.file = e'.file → e.key ≤ e'.key ∧ e.pos ≤ e'.pos) ∧ Rising (e' :: l)

mutual
/-- All entries are rising, and so are the keys of the additional indexes. -/
def FI.Ok : FI → Prop
  | .mk es as => Rising es ∧ as.Ok 0
def FIs.Ok (diff : Nat) : FIs → Prop
  | .nil => True
  | .cons k ix r => diff ≤ k ∧ ix.Ok ∧ r.Ok k
end

mutual
/-- Calls that are needed to read. -/
def FI.depth : FI → Nat
  | .mk _ as => as.depth + 1
def FIs.depth : FIs → Nat
  | .nil => 1
  | .cons _ ix r => ix.depth + r.depth + 1
end

theorem decShort_enc {n : Nat} (h : n < 65536) (r : List UInt8) : decShort (encBE 2 n ++ r) = some (n, r) := by
  simp only [encBE, List.cons_append, List.nil_append, decShort]
  congr 2
  simp only [UInt8.toNat_ofNat']
  omega

theorem read_writeEntries {C : Codec} (hC : C.Ok) : ∀ (es : List Entry) (old : Option Entry) (r : List UInt8), Rising es → (∀ o ∈ old, ∀ e ∈ es.head?, o.file = e.file → o.key ≤ e.key ∧ o.pos ≤ e.pos) →
    readEntries C es.length old (writeEntries C old es ++ r) = some (es, r)
  | [], _, _, _, _ => rfl
  | e :: es, old, r, hr, ho => by
    have hf : e.file < 65536 := by
      cases es with
      | nil => exact hr
      | cons e' l => exact hr.1
    have hr' : Rising es := by
      cases es with
      | nil => trivial
      | cons e' l => exact hr.2.2
    have hn : ∀ o ∈ some e, ∀ e' ∈ es.head?, o.file = e'.file → o.key ≤ e'.key ∧ o.pos ≤ e'.pos := by
      intro o h1 e' h2
      cases es with
      | nil => cases h2
      | cons e'' l =>
        cases h1
        cases h2
        exact hr.2.1
    have ih := read_writeEntries hC es (some e) r hr' hn
    have hC' : ∀ n r, C.dec (C.enc n ++ r) = some (n, r) := hC
    simp only [List.length_cons, readEntries, writeEntries, List.append_assoc, hC', Option.bind_some, decV_encV, decShort_enc hf]
    cases old with
    | none =>
      simp only
      rw [ih]
      rfl
    | some o =>
      by_cases hx : o.file = e.file
      · obtain ⟨h1, h2⟩ := ho o rfl e rfl hx
        have e1 : (⟨e.key - o.key + o.key, e.file, e.pos - o.pos + o.pos⟩ : Entry) = e := by
          rw [Nat.sub_add_cancel h1, Nat.sub_add_cancel h2]
        simp only [if_pos hx, if_pos hx.symm, e1]
        rw [ih]
        rfl
      · simp only [if_neg hx, if_neg (Ne.symm hx)]
        rw [ih]
        rfl

mutual
theorem read_write {C : Codec} (hC : C.Ok) : ∀ (x : FI) (f : Nat) (r : List UInt8), x.Ok → x.depth ≤ f → read C f (write C x ++ r) = some (x, r)
  | .mk es as, 0, _, _, hf => by simp [FI.depth] at hf
  | .mk es .nil, f + 1, r, hx, _ => by
    have h := read_writeEntries hC es none ([0] ++ r) hx.1 (by rintro _ ⟨⟩)
    simp only [read, write, List.append_assoc, decV_encV, Option.bind_some]
    rw [h]
    rfl
  | .mk es (.cons k ix as), f + 1, r, hx, hf => by
    have h := read_writeEntries hC es none ((1 :: (encV (as.length + 1) ++ (encV k ++ (write C ix ++ writeMore C k as)))) ++ r) hx.1 (by rintro _ ⟨⟩)
    have hm := readMore_writeMore hC (.cons k ix as) f 0 r hx.2 (by simp [FI.depth] at hf; omega)
    simp only [writeMore, FIs.length, Nat.sub_zero, List.append_assoc] at hm
    simp only [read, write, List.append_assoc, decV_encV, Option.bind_some]
    simp only [List.append_assoc, List.cons_append] at h
    simp only [List.cons_append, List.append_assoc]
    rw [h]
    simp only [Option.bind_some, if_true, decV_encV]
    rw [hm]
    rfl
theorem readMore_writeMore {C : Codec} (hC : C.Ok) : ∀ (x : FIs) (f diff : Nat) (r : List UInt8), x.Ok diff → x.depth ≤ f → readMore C f x.length diff (writeMore C diff x ++ r) = some (x, r)
  | .nil, 0, _, _, _, hf => by simp [FIs.depth] at hf
  | .nil, f + 1, _, _, _, _ => rfl
  | .cons k ix as, 0, _, _, _, hf => by simp [FIs.depth] at hf
  | .cons k ix as, f + 1, diff, r, hx, hf => by
    have hp : ∀ y : FI, 0 < y.depth := fun y => by cases y; simp [FI.depth]
    obtain ⟨h1, h2, h3⟩ := hx
    have ih1 := read_write hC ix f (writeMore C k as ++ r) h2 (by simp [FIs.depth] at hf; omega)
    have ih2 := readMore_writeMore hC as f k r h3 (by simp [FIs.depth] at hf; omega)
    have e1 : k - diff + diff = k := by omega
    simp only [FIs.length, readMore, writeMore, List.append_assoc, decV_encV, Option.bind_some, ih1, e1, ih2, Option.map_some]
end

/-- **C118 (round trip, part).** An index that was written is read back as it was, with all additional indexes at any depth, and reading stops where writing stopped.  It is for keys and positions that do not decrease within a file.  Missing: negative differences, which depend on the codecs of kognac. -/
theorem C118_roundtrip_partial {C : Codec} (hC : C.Ok) {x : FI} (hx : x.Ok) (rest : List UInt8) : ∃ m, ∀ f ≥ m, read C f (write C x ++ rest) = some (x, rest) :=
  ⟨x.depth, fun f hf => read_write hC x f rest hx hf⟩

/-! ## Lookups -/

theorem getD_lt {keys : List Nat} (hk : keys.Pairwise (· < ·)) {i j : Nat} (hij : i < j) (hj : j < keys.length) : keys.getD i 0 < keys.getD j 0 := by
  rw [List.getD_eq_getElem?_getD, List.getD_eq_getElem?_getD, List.getElem?_eq_getElem (by omega), List.getElem?_eq_getElem hj]
  exact List.pairwise_iff_getElem.1 hk i j (by omega) hj hij

/-- The position of the first key from `start` on that is not below `key`. -/
def FirstFrom (keys : List Nat) (start key i : Nat) : Prop := start ≤ i ∧ i ≤ keys.length ∧ (∀ j, start ≤ j → j < i → keys.getD j 0 < key) ∧ (i < keys.length → key ≤ keys.getD i 0)

theorem search_spec {keys : List Nat} (hk : keys.Pairwise (· < ·)) {start key : Nat} : ∀ (n : Nat) (low high : Int), (start : Int) ≤ low → high < keys.length → low ≤ high + 1 → high + 1 - low < n →
    (∀ j : Nat, start ≤ j → (j : Int) < low → keys.getD j 0 < key) → (∀ j : Nat, high < j → j < keys.length → key ≤ keys.getD j 0) →
      ∃ i : Nat, search keys key n low high = i ∧ FirstFrom keys start key i
  | 0, low, high, _, _, h3, h4, _, _ => by omega
  | n + 1, low, high, h1, h2, h3, h4, h5, h6 => by
    rw [search]
    by_cases hlh : low ≤ high
    · rw [if_pos hlh]
      have hm1 : low ≤ (low + high) / 2 := by omega
      have hm2 : (low + high) / 2 ≤ high := by omega
      generalize (low + high) / 2 = mid at hm1 hm2
      have hmid : (mid.toNat : Int) = mid := by omega
      simp only
      by_cases hv : keys.getD mid.toNat 0 < key
      · rw [if_pos hv]
        refine search_spec hk n (mid + 1) high (by omega) h2 (by omega) (by omega) (fun j j1 j2 => ?_) h6
        rcases Nat.lt_or_ge j mid.toNat with hj | hj
        · exact Nat.lt_trans (getD_lt hk hj (by omega)) hv
        · have : j = mid.toNat := by omega
          rw [this]
          exact hv
      · rw [if_neg hv]
        by_cases hv2 : keys.getD mid.toNat 0 > key
        · rw [if_pos hv2]
          refine search_spec hk n low (mid - 1) h1 (by omega) (by omega) (by omega) h5 (fun j j1 j2 => ?_)
          rcases Nat.lt_or_ge mid.toNat j with hj | hj
          · exact Nat.le_of_lt (Nat.lt_trans hv2 (getD_lt hk hj j2))
          · have : j = mid.toNat := by omega
            rw [this]
            exact Nat.le_of_lt hv2
        · rw [if_neg hv2]
          refine ⟨mid.toNat, hmid.symm, by omega, by omega, fun j j1 j2 => ?_, fun _ => by omega⟩
          have := getD_lt hk j2 (by omega)
          omega
    · rw [if_neg hlh]
      refine ⟨low.toNat, by omega, by omega, by omega, fun j j1 j2 => h5 j j1 (by omega), fun h => h6 _ (by omega) h⟩

/-- **C118 (lookup, part).** For ascending keys, `idx(start, key)` returns the position of the first key from `start` on that is not below `key`, and the number of keys if there is none.  Missing: no keys (`C118_empty_violated`). -/
theorem C118_lookup_partial {keys : List Nat} (hk : keys.Pairwise (· < ·)) {start : Nat} (hs : start < keys.length) (key : Nat) : ∃ i : Nat, idx keys start key = some (i : Int) ∧ FirstFrom keys start key i := by
  have hg : keys[start]? = some (keys.getD start 0) := by rw [List.getD_eq_getElem?_getD, List.getElem?_eq_getElem hs]; rfl
  unfold idx
  rw [hg]
  simp only
  by_cases h1 : key ≤ keys.getD start 0
  · rw [if_pos h1]
    exact ⟨start, rfl, Nat.le_refl _, by omega, fun j j1 j2 => absurd j2 (by omega), fun _ => h1⟩
  · rw [if_neg h1]
    by_cases h2 : start + 1 < keys.length ∧ key < keys.getD (start + 1) 0
    · rw [if_pos h2]
      refine ⟨start + 1, rfl, by omega, by omega, fun j j1 j2 => ?_, fun _ => by omega⟩
      have : j = start := by omega
      rw [this]
      omega
    · rw [if_neg h2]
      obtain ⟨i, g1, g2⟩ := search_spec hk (start := start) (key := key) (keys.length + 1) start (keys.length - 1) (by omega) (by omega) (by omega) (by omega)
        (fun j j1 j2 => absurd j2 (by omega)) (fun j j1 j2 => absurd j1 (by omega))
      exact ⟨i, by rw [g1], g2⟩

/-- **C118 (lookup, violated).** Without keys the lookup reads outside of the array. -/
theorem C118_empty_violated (key : Nat) : idx [] 0 key = none := rfl

theorem findKey_spec {keys : List Nat} (hk : keys.Pairwise (· < ·)) {key : Nat} : ∀ (n : Nat) (low high : Int), 0 ≤ low → high < keys.length → low ≤ high + 1 → high + 1 - low < n →
    (∀ j : Nat, (j : Int) < low → keys.getD j 0 < key) → (∀ j : Nat, high < j → j < keys.length → key < keys.getD j 0) →
      ∀ i, findKey keys key n low high = some i ↔ i < keys.length ∧ keys.getD i 0 = key
  | 0, low, high, _, _, h3, h4, _, _ => by omega
  | n + 1, low, high, h1, h2, h3, h4, h5, h6 => by
    intro i
    rw [findKey]
    by_cases hlh : low ≤ high
    · rw [if_pos hlh]
      have hm1 : low ≤ (low + high) / 2 := by omega
      have hm2 : (low + high) / 2 ≤ high := by omega
      generalize (low + high) / 2 = mid at hm1 hm2
      simp only
      by_cases hv : keys.getD mid.toNat 0 < key
      · rw [if_pos hv]
        refine findKey_spec hk n (mid + 1) high (by omega) h2 (by omega) (by omega) (fun j j2 => ?_) h6 i
        rcases Nat.lt_or_ge j mid.toNat with hj | hj
        · exact Nat.lt_trans (getD_lt hk hj (by omega)) hv
        · have : j = mid.toNat := by omega
          rw [this]
          exact hv
      · rw [if_neg hv]
        by_cases hv2 : keys.getD mid.toNat 0 > key
        · rw [if_pos hv2]
          refine findKey_spec hk n low (mid - 1) h1 (by omega) (by omega) (by omega) h5 (fun j j1 j2 => ?_) i
          rcases Nat.lt_or_ge mid.toNat j with hj | hj
          · exact Nat.lt_trans hv2 (getD_lt hk hj j2)
          · have : j = mid.toNat := by omega
            rw [this]
            exact hv2
        · rw [if_neg hv2, Option.some.injEq]
          constructor
          · rintro rfl
            exact ⟨by omega, by omega⟩
          · rintro ⟨g1, g2⟩
            rcases Nat.lt_trichotomy mid.toNat i with h | h | h
            · have := getD_lt hk h g1
              omega
            · exact h
            · have := getD_lt hk h (by omega)
              omega
    · rw [if_neg hlh]
      refine ⟨nofun, fun ⟨g1, g2⟩ => ?_⟩
      by_cases hi : (i : Int) < low
      · have := h5 i hi
        omega
      · have := h6 i (by omega) g1
        omega

/-- **C118 (additional indexes).** For ascending keys, the additional index of a key is found exactly if there is one, and it is the one of this key. -/
theorem C118_additional {keys : List Nat} (hk : keys.Pairwise (· < ·)) (key i : Nat) : additional keys key = some i ↔ i < keys.length ∧ keys.getD i 0 = key :=
  findKey_spec hk _ _ _ (by omega) (by omega) (by omega) (by omega) (fun j h => absurd h (by omega)) (fun j h1 h2 => absurd h1 (by omega)) i

/-! ## Adding -/

/-- The arrays hold exactly these entries. -/
def Arrs.Holds (a : Arrs) (es : List Entry) : Prop := a.entries = es.map some

theorem add_spec {a : Arrs} {es : List Entry} (h1 : a.size = es.length) (h2 : a.data.length = a.cap) (h3 : a.size ≤ a.cap) (h4 : a.Holds es) (e : Entry) :
    (a.add e).size = (es ++ [e]).length ∧ (a.add e).data.length = (a.add e).cap ∧ (a.add e).size ≤ (a.add e).cap ∧ (a.add e).Holds (es ++ [e]) := by
  have hc : a.check.size = a.size ∧ a.check.data.length = a.check.cap ∧ a.check.size < a.check.cap ∧ a.check.data.take a.size = es.map some := by
    unfold Arrs.check
    by_cases h : a.size ≥ a.cap
    · have hs : a.size = a.cap := by omega
      have hk : (if a.size > 0 then a.data.take a.cap else []) = es.map some := by
        rw [← h4, Arrs.entries, hs]
        split
        · rfl
        · have : a.cap = 0 := by omega
          rw [this]
          rfl
      simp only [if_pos h, hk]
      have hl : (es.map some).length = a.size := by rw [List.length_map, h1]
      refine ⟨trivial, ?_, ?_, ?_⟩
      · rw [List.length_append, List.length_replicate, hl]
        omega
      · show a.size < max (max (a.size * 2) 128) (a.cap * 3 / 2)
        omega
      · rw [List.take_append_of_le_length (by omega), List.take_of_length_le (by omega)]
    · simp only [if_neg h]
      exact ⟨trivial, h2, by omega, h4⟩
  obtain ⟨c1, c2, c3, c4⟩ := hc
  refine ⟨?_, ?_, ?_, ?_⟩
  · show a.check.size + 1 = _
    rw [c1, h1, List.length_append]
    rfl
  · show (a.check.data.set a.check.size (some e)).length = a.check.cap
    rw [List.length_set, c2]
  · show a.check.size + 1 ≤ a.check.cap
    omega
  · show (a.check.data.set a.check.size (some e)).take (a.check.size + 1) = (es ++ [e]).map some
    rw [List.take_succ, List.take_set_of_le (Nat.le_refl _), List.getElem?_set_self (by omega), c1, c4, List.map_append]
    rfl

/-- **C118 (adding, part).** A new index to which entries are added has exactly these entries, in this order.  Missing: indexes that were read (`C118_reload_violated`). -/
theorem C118_add_partial (es : List Entry) : (es.foldl Arrs.add Arrs.new).Holds es := by
  have key : ∀ (l : List Entry) (a : Arrs) (es : List Entry), a.size = es.length → a.data.length = a.cap → a.size ≤ a.cap → a.Holds es → (l.foldl Arrs.add a).Holds (es ++ l) := by
    intro l
    induction l with
    | nil => intro a es _ _ _ h; simpa using h
    | cons e l ih =>
      intro a es h1 h2 h3 h4
      obtain ⟨g1, g2, g3, g4⟩ := add_spec h1 h2 h3 h4 e
      have := ih (a.add e) (es ++ [e]) g1 g2 g3 g4
      simpa using this
  simpa using key es Arrs.new [] rfl rfl (Nat.le_refl _) rfl

/-- **C118 (adding, violated).** Adding an entry to an index that was read loses all entries that it had. -/
theorem C118_reload_violated (es : List Entry) (hne : es ≠ []) (e : Entry) : ((Arrs.loaded es).add e).entries = List.replicate es.length none ++ [some e] := by
  have hpos : 0 < es.length := List.length_pos_iff.2 hne
  have hcheck : (Arrs.loaded es).check = ⟨max (max (es.length * 2) 128) 0, es.length, List.replicate (max (max (es.length * 2) 128) 0) none⟩ := by
    unfold Arrs.check Arrs.loaded
    simp only
    rw [if_pos (Nat.zero_le _), if_pos hpos]
    simp
  show ((Arrs.loaded es).check.data.set (Arrs.loaded es).check.size (some e)).take ((Arrs.loaded es).check.size + 1) = _
  rw [hcheck]
  simp only
  rw [List.take_succ, List.take_set_of_le (Nat.le_refl _), List.getElem?_set_self (by rw [List.length_replicate]; omega), List.take_replicate]
  congr 2
  omega

/-! ## The hypotheses are met -/

/-- `encV` is such a codec. -/
def exCodec : Codec := ⟨encV, decV⟩
theorem exCodec_ok : exCodec.Ok := decV_encV

/-- Two files, and an additional index for the key 300. -/
def exIndex : FI := .mk [⟨5, 0, 10⟩, ⟨300, 0, 400⟩, ⟨700, 1, 3⟩] (.cons 300 (.mk [⟨9, 0, 20⟩, ⟨70000, 0, 90⟩] .nil) (.cons 700 (.mk [] .nil) .nil))

theorem exIndex_ok : exIndex.Ok := by
  simp [exIndex, FI.Ok, FIs.Ok, Rising]

example : ∃ m, ∀ f ≥ m, read exCodec f (write exCodec exIndex ++ [7, 7]) = some (exIndex, [7, 7]) := C118_roundtrip_partial exCodec_ok exIndex_ok _

example : ∃ i : Nat, idx [5, 300, 700, 900] 1 800 = some (i : Int) ∧ FirstFrom [5, 300, 700, 900] 1 800 i := C118_lookup_partial (by decide) (by decide) 800

example : idx [5, 300, 700, 900] 0 800 = some 3 := by decide

example : additional [5, 300, 700, 900] 700 = some 2 := (C118_additional (by decide) 700 2).2 ⟨by decide, by decide⟩

example : ([⟨5, 0, 10⟩, ⟨300, 0, 400⟩].foldl Arrs.add Arrs.new).Holds [⟨5, 0, 10⟩, ⟨300, 0, 400⟩] := C118_add_partial _

example : ((Arrs.loaded [⟨5, 0, 10⟩]).add ⟨300, 0, 400⟩).entries = [none, some ⟨300, 0, 400⟩] := C118_reload_violated _ (by simp) _

end Trident.FIdx
