import Verif.Dict.Gud
import Verif.Dict.CompressProofs
namespace Trident.Dict

/-- The digits of a number give the number back. -/
theorem decimal_spec : ∀ (f n : Nat), n < 10 ^ f → 0 < f → (∀ c ∈ decimal f n, isDigit c = true) ∧ digitsVal (decimal f n) = n ∧ decimal f n ≠ []
  | 0, _, _, h => absurd h (by omega)
  | f + 1, n, h, _ => by
    have dig : ∀ d, d < 10 → isDigit (UInt8.ofNat (48 + d)) = true ∧ (UInt8.ofNat (48 + d)).toNat - 48 = d := by decide
    rw [decimal]
    by_cases hn : n < 10
    · rw [if_pos hn]
      refine ⟨?_, ?_, by simp⟩
      · intro c hc
        simp only [List.mem_singleton] at hc
        rw [hc]; exact (dig n hn).1
      · simp only [digitsVal, List.foldl_cons, List.foldl_nil, (dig n hn).2]; omega
    · rw [if_neg hn]
      have hf : 0 < f := by
        rcases Nat.eq_zero_or_pos f with e | e
        · subst e; omega
        · exact e
      obtain ⟨a, b, -⟩ := decimal_spec f (n / 10) (by rw [Nat.pow_succ] at h; omega) hf
      refine ⟨?_, ?_, by simp⟩
      · intro c hc
        rcases List.mem_append.1 hc with hc | hc
        · exact a c hc
        · simp only [List.mem_singleton] at hc
          rw [hc]; exact (dig _ (Nat.mod_lt _ (by omega))).1
      · unfold digitsVal at b ⊢
        rw [List.foldl_append, b]
        simp only [List.foldl_cons, List.foldl_nil, (dig _ (Nat.mod_lt n (by omega : 0 < 10))).2]
        omega

theorem takeWhile_app {α : Type} {p : α → Bool} : ∀ {l : List α} {x : α} {r : List α}, (∀ c ∈ l, p c = true) → p x = false →
    (l ++ x :: r).takeWhile p = l ∧ (l ++ x :: r).dropWhile p = x :: r
  | [], x, r, _, hx => by simp [hx]
  | c :: l, x, r, h, hx => by
    obtain ⟨a, b⟩ := takeWhile_app (r := r) (fun d hd => h d (by simp [hd])) hx (l := l)
    rw [List.cons_append, List.takeWhile_cons, List.dropWhile_cons, h c (by simp)]
    simp [a, b]

theorem dropWhile_all {α : Type} {p : α → Bool} : ∀ {l r : List α}, (∀ c ∈ l, p c = true) → (l ++ r).dropWhile p = r.dropWhile p
  | [], r, _ => rfl
  | c :: l, r, h => by
    rw [List.cons_append, List.dropWhile_cons, h c (by simp)]
    exact dropWhile_all fun d hd => h d (by simp [hd])

theorem digit_class (c : UInt8) (h : isDigit c = true) : isSpace c = false ∧ c ≠ 45 ∧ c ≠ 43 := by
  have key : ∀ n, n < 256 → isDigit (UInt8.ofNat n) = true → isSpace (UInt8.ofNat n) = false ∧ UInt8.ofNat n ≠ 45 ∧ UInt8.ofNat n ≠ 43 := by
    decide +kernel
  have := key c.toNat c.toNat_lt
  rw [UInt8.ofNat_toNat] at this
  exact this h

/-- Reading a number that was written, followed by a character that is not a digit. -/
theorem readNum_spec {n : Nat} (h : n < 2 ^ 64) (ws : List UInt8) (hw : ∀ c ∈ ws, isSpace c = true) {x : UInt8} (hx : isDigit x = false) (r : List UInt8) :
    readNum (ws ++ (showNum n ++ x :: r)) = .ok n (x :: r) := by
  obtain ⟨a, b, c⟩ := decimal_spec 20 n (by omega) (by omega)
  have hd : (ws ++ (showNum n ++ x :: r)).dropWhile isSpace = showNum n ++ x :: r := by
    rw [dropWhile_all hw]
    unfold showNum
    cases hs : decimal 20 n with
    | nil => exact absurd hs c
    | cons d ds =>
      rw [List.cons_append, List.dropWhile_cons, (digit_class d (a d (by simp [hs]))).1]
      simp
  have hh : (showNum n ++ x :: r).head? ≠ some 45 ∧ (showNum n ++ x :: r).head? ≠ some 43 := by
    unfold showNum
    cases hs : decimal 20 n with
    | nil => exact absurd hs c
    | cons d ds =>
      have := digit_class d (a d (by simp [hs]))
      simp only [List.cons_append, List.head?_cons, ne_eq, Option.some.injEq]
      exact this.2
  unfold readNum
  simp only [hd, hh.1, hh.2, or_self, if_false]
  obtain ⟨t1, t2⟩ := takeWhile_app (r := r) a hx
  unfold showNum
  rw [t1, t2, b, if_neg (by
    rintro (e | e)
    · exact c e
    · omega)]

/-- A text that can be read back: not empty and without white space. -/
def Plain (t : Text) : Prop := t ≠ [] ∧ ∀ c ∈ t, isSpace c = false

/-- One entry. -/
theorem readEntries_step {fuel : Nat} {ws : List UInt8} (hw : ∀ c ∈ ws, isSpace c = true) {e : Nat × Text} (hid : e.1 < 2 ^ 64) (ht : Plain e.2) (r : List UInt8) (g : Gud) :
    readEntries (fuel + 1) (ws ++ (showNum e.1 ++ [9] ++ e.2 ++ [10] ++ r)) g =
      readEntries fuel ([10] ++ r) { g with texts := insertNew e.1 e.2 g.texts, ids := insertNew e.2 e.1 g.ids } := by
  have en : ws ++ (showNum e.1 ++ [9] ++ e.2 ++ [10] ++ r) = ws ++ (showNum e.1 ++ 9 :: (e.2 ++ 10 :: r)) := by simp
  rw [en, readEntries, readNum_spec hid ws hw (by decide)]
  have hd : (9 :: (e.2 ++ 10 :: r)).dropWhile isSpace = e.2 ++ 10 :: r := by
    rw [List.dropWhile_cons]
    obtain ⟨hn, hc⟩ := ht
    cases h : e.2 with
    | nil => exact absurd h hn
    | cons c cs =>
      have := hc c (by simp [h])
      have h9 : isSpace 9 = true := by decide
      rw [h9, if_pos rfl, List.cons_append, List.dropWhile_cons, this]
      rfl
  obtain ⟨t1, t2⟩ := takeWhile_app (p := fun c => !isSpace c) (l := e.2) (x := 10) (r := r) (fun c hc => by simp [ht.2 c hc]) (by decide)
  simp only [hd, t1, t2, ht.1, if_false, List.isEmpty_cons, Bool.false_eq_true]
  rfl

theorem readEntries_spec : ∀ (l : List (Nat × Text)) (fuel : Nat) (g : Gud) (ws : List UInt8), (∀ c ∈ ws, isSpace c = true) → l.length < fuel →
    (∀ e ∈ l, e.1 < 2 ^ 64 ∧ Plain e.2) →
    readEntries fuel (ws ++ l.flatMap fun e => showNum e.1 ++ [9] ++ e.2 ++ [10]) g =
      some (l.foldl (fun g e => { g with texts := insertNew e.1 e.2 g.texts, ids := insertNew e.2 e.1 g.ids }) g)
  | [], fuel + 1, g, ws, hw, _, _ => by
    have : (ws.dropWhile isSpace) = [] := by
      have := dropWhile_all (r := []) hw
      simpa using this
    simp [readEntries, readNum, this]
  | e :: l, fuel + 1, g, ws, hw, hl, h => by
    rw [List.flatMap_cons, readEntries_step hw (h e (by simp)).1 (h e (by simp)).2, List.foldl_cons]
    exact readEntries_spec l fuel _ [10] (by decide) (by simpa using hl) (fun x hx => h x (by simp [hx]))

theorem insertAll {α β : Type} [BEq α] [LawfulBEq α] : ∀ (l acc : List (α × β)), ((acc ++ l).map (·.1)).Nodup →
    l.foldl (fun a e => insertNew e.1 e.2 a) acc = acc ++ l
  | [], acc, _ => by simp
  | e :: l, acc, h => by
    have hn : acc.lookup e.1 = none := by
      rw [lookup_none]
      rw [List.map_append, List.nodup_append] at h
      intro hm
      exact h.2.2 _ hm e.1 (by simp) rfl
    rw [List.foldl_cons, insertNew, hn]
    simp only [Option.isSome_none, Bool.false_eq_true, if_false]
    rw [insertAll l _ (by simpa using h)]
    simp

/-- The entries of the file, in the order in which they were written. -/
theorem readGud_spec {order : List (Nat × Text) → List (Nat × Text)} {g : Gud} (hl : g.largest < 2 ^ 64)
    (h : ∀ e ∈ order g.texts, e.1 < 2 ^ 64 ∧ Plain e.2) (h1 : ((order g.texts).map (·.1)).Nodup) (h2 : ((order g.texts).map (·.2)).Nodup) :
    readGud (g.write order) = some ⟨order g.texts, (order g.texts).map fun e => (e.2, e.1), g.largest⟩ := by
  have hlen : ∀ l : List (Nat × Text), l.length ≤ (l.flatMap fun e => showNum e.1 ++ [9] ++ e.2 ++ [10]).length := by
    intro l
    induction l with
    | nil => simp
    | cons e l ih =>
      rw [List.flatMap_cons, List.length_append, List.length_cons]
      simp only [List.length_append, List.length_cons, List.length_nil]
      omega
  unfold readGud Gud.write
  have en : showNum g.largest ++ [10] ++ ((order g.texts).flatMap fun e => showNum e.1 ++ [9] ++ e.2 ++ [10]) =
      [] ++ (showNum g.largest ++ 10 :: ((order g.texts).flatMap fun e => showNum e.1 ++ [9] ++ e.2 ++ [10])) := by simp
  rw [en, readNum_spec hl [] (by simp) (by decide)]
  simp only [List.isEmpty_cons, Bool.false_eq_true, if_false, List.length_cons]
  have := readEntries_spec (order g.texts) (((order g.texts).flatMap fun e => showNum e.1 ++ [9] ++ e.2 ++ [10]).length + 1 + 1) ⟨[], [], g.largest⟩ [10]
    (by decide) (by have := hlen (order g.texts); omega) h
  simp only [List.cons_append, List.nil_append] at this
  rw [this]
  have e1 := insertAll (order g.texts) [] (by simpa using h1)
  have e2 := insertAll ((order g.texts).map fun e => (e.2, e.1)) [] (by simpa [Function.comp_def] using h2)
  have gen : ∀ (l : List (Nat × Text)) (g : Gud), l.foldl (fun g e => { g with texts := insertNew e.1 e.2 g.texts, ids := insertNew e.2 e.1 g.ids }) g =
      ⟨l.foldl (fun a e => insertNew e.1 e.2 a) g.texts, (l.map fun e => (e.2, e.1)).foldl (fun a e => insertNew e.1 e.2 a) g.ids, g.largest⟩ := by
    intro l
    induction l with
    | nil => intro g; rfl
    | cons e l ih => intro g; rw [List.foldl_cons, ih, List.map_cons, List.foldl_cons, List.foldl_cons]
  rw [gen, e1, e2]
  simp

end Trident.Dict
