import Verif.Http.Web
import Verif.Http.JsonProofs
import Verif.Http.PostProofs
/-!
Lemmas on the pages and the lookups of the server.
-/
namespace Trident.Http
open Spec (Files place parts walk Occurs First Shows bytes IsJson Label)

/-! ## Numbers -/

theorem fits (n : Nat) : ((some (n : Int)).bind fun n => if -2147483648 ≤ n ∧ n < 2147483648 then some n else none) = if n < 2147483648 then some (n : Int) else none := by
  rw [Option.bind_some]
  have e : (-2147483648 ≤ (n : Int) ∧ (n : Int) < 2147483648) ↔ n < 2147483648 := by omega
  simp only [e]

theorem stoi_decimal (n : Nat) : stoi (decimal n) = if n < 2147483648 then some (n : Int) else none := by
  rcases hd : decimal n with _ | ⟨c, u⟩
  · exact absurd hd (decimal_ne n)
  have hc : 48 ≤ c ∧ c ≤ 57 := decimal_digit (n := n) (hd ▸ List.mem_cons_self)
  have hs : skipBlanks (c :: u) = c :: u := by
    rw [skipBlanks, if_neg (by omega)]
  have hv : digits 0 (c :: u) = n := hd ▸ digits_decimal n
  have hg : signed (c :: u) = some (n : Int) := by
    unfold signed
    split
    · rename_i e; injection e with e1 e2; omega
    · rename_i e; injection e with e1 e2; omega
    · rename_i e; injection e with e1 e2; subst e1 e2; rw [if_pos hc, hv]
    · rename_i e; cases e
  rw [stoi, hs, hg]
  exact fits n

/-- A minus sign before a number. -/
theorem stoi_minus (n : Nat) (hn : n ≤ 2147483648) : stoi (45 :: decimal n) = some (-(n : Int)) := by
  rcases hd : decimal n with _ | ⟨c, u⟩
  · exact absurd hd (decimal_ne n)
  have hc : 48 ≤ c ∧ c ≤ 57 := decimal_digit (n := n) (hd ▸ List.mem_cons_self)
  have hs : skipBlanks (45 :: c :: u) = 45 :: c :: u := by
    rw [skipBlanks, if_neg (by omega)]
  have hv : digits 0 (c :: u) = n := hd ▸ digits_decimal n
  have hg : signed (45 :: c :: u) = some (-(n : Int)) := by
    simp only [signed, if_pos hc, hv]
  rw [stoi, hs, hg]
  exact if_pos (by omega)

/-! ## Lookups -/

theorem lookup_label {get : Nat → Option Text} {n : Nat} {t s : Text} (hn : n < 2147483648) (hg : get n = some t) (hl : Label t s) : lookup get (decimal n) = .text s := by
  have e : (((n : Int) % 4294967296).toNat) = n := by omega
  rw [lookup, stoi_decimal, if_pos hn]
  simp only [e, hg]
  cases hl with
  | iri => simp
  | other hc => simp [hc]

theorem lookupPage_json (s : Text) : ∃ page, lookupPage s = some page ∧ page ≠ [] ∧ IsJson page (.obj [(bytes "value", .str s)]) := by
  have hv : ascii "value" ≠ [] := by decide +kernel
  have e : lookupPage s = write (.mk [(ascii "value", s)] [] [] []) := by
    simp [lookupPage, Json.put, Json.new, hv, insert]
  rcases hw : write (.mk [(ascii "value", s)] [] [] []) with _ | page
  · simp [write, writeChildren] at hw
  · refine ⟨page, by rw [e, hw], ?_, ?_⟩
    · intro h
      subst h
      simp [write, writeChildren] at hw
    · have := write_isJson hw
      simp only [meaning, meanMembers, List.isEmpty_nil, List.map_cons, List.map_nil, List.append_nil] at this
      exact this

/-! ## Requests -/

theorem requestOf_lookup {h form : Text} (hform : First formType (ascii "POST /lookup HTTP" ++ h) form) :
    requestOf (ascii "POST /lookup HTTP" ++ (h ++ form)) = some (.lookup (valueParam form (ascii "id"))) := by
  have hf : formOf (ascii "POST /lookup HTTP" ++ (h ++ form)) = some form := by
    obtain ⟨⟨v, hv⟩, hmin⟩ := hform
    have : find formType (ascii "POST /lookup HTTP" ++ (h ++ form)) = some (ascii "POST /lookup HTTP" ++ h).length := by
      rw [← List.append_assoc]
      refine find_eq ⟨ascii "POST /lookup HTTP" ++ h, v, ?_, rfl⟩ hmin
      rw [← hv]; simp
    rw [formOf, this]
    show some ((ascii "POST /lookup HTTP" ++ (h ++ form)).drop (ascii "POST /lookup HTTP" ++ h).length) = _
    rw [← List.append_assoc, List.drop_left]
  have hpre : (ascii "POST").isPrefixOf (ascii "POST /lookup HTTP" ++ (h ++ form)) = true := by
    refine List.isPrefixOf_iff_prefix.2 ⟨ascii " /lookup HTTP" ++ (h ++ form), ?_⟩
    rw [← List.append_assoc, show ascii "POST" ++ ascii " /lookup HTTP" = ascii "POST /lookup HTTP" by decide +kernel]
  have hpath : pathOf (ascii "POST /lookup HTTP" ++ (h ++ form)) 5 = some (ascii "/lookup") := by
    have e : ascii "POST /lookup HTTP" = [80, 79, 83, 84, 32, 47, 108, 111, 111, 107, 117, 112, 32, 72, 84, 84, 80] := by decide +kernel
    have eh : ascii "HTTP" = [72, 84, 84, 80] := by decide +kernel
    have es : ascii "/lookup" = [47, 108, 111, 111, 107, 117, 112] := by decide +kernel
    rw [e, es]
    unfold pathOf
    rw [eh]
    simp [find]
  rw [requestOf, if_pos hpre, hpath]
  have hne : ascii "/lookup" ≠ ascii "/sparql" := by decide +kernel
  simp only [Option.bind_some, if_neg hne, if_true, hf, Option.map_some]

/-- The path of a request is what stands before the first `HTTP`, without the space. -/
theorem requestOf_get {p rest : Text} (hf : First (ascii "HTTP") (ascii "GET " ++ (p ++ [32])) (ascii "HTTP" ++ rest)) (hl : 1 < p.length) :
    requestOf (ascii "GET " ++ (p ++ 32 :: (ascii "HTTP" ++ rest))) = some (.page p) := by
  have e : ascii "GET " ++ (p ++ 32 :: (ascii "HTTP" ++ rest)) = (ascii "GET " ++ (p ++ [32])) ++ (ascii "HTTP" ++ rest) := by simp
  have eg : ascii "GET " = [71, 69, 84, 32] := by decide +kernel
  have eG : ascii "GET" = [71, 69, 84] := by decide +kernel
  have eP : ascii "POST" = [80, 79, 83, 84] := by decide +kernel
  have hfind : find (ascii "HTTP") (ascii "GET " ++ (p ++ 32 :: (ascii "HTTP" ++ rest))) = some (ascii "GET " ++ (p ++ [32])).length := by
    rw [e]
    refine find_eq ⟨_, rest, by simp, rfl⟩ hf.2
  have hpath : pathOf (ascii "GET " ++ (p ++ 32 :: (ascii "HTTP" ++ rest))) 4 = some p := by
    unfold pathOf
    rw [hfind, eg]
    simp
  have h1 : ¬ (ascii "POST").isPrefixOf (ascii "GET " ++ (p ++ 32 :: (ascii "HTTP" ++ rest))) = true := by
    rw [eP, eg]; simp
  have h2 : (ascii "GET").isPrefixOf (ascii "GET " ++ (p ++ 32 :: (ascii "HTTP" ++ rest))) = true := by
    rw [eG, eg]; simp
  rw [requestOf, if_neg h1, if_pos h2, hpath]
  simp [hl]

/-! ## Pages -/

theorem fillPort_shows {port : Nat} {content : Text} (h : ∀ i j, Occurs (bytes "WEB_PORT") content i → Occurs (bytes "WEB_PORT") content j → i = j) : Shows port content (fillPort port content) := by
  unfold fillPort
  split
  · rename_i hn
    refine .plain fun i hi => ?_
    have hb : find (ascii "WEB_PORT") content ≠ none := by
      intro hn'
      have hex : ∃ i, Occurs (bytes "WEB_PORT") content i := ⟨i, hi⟩
      have hm := find_eq (p := ascii "WEB_PORT") hi fun j hj => Nat.le_of_eq (h i j hi hj)
      rw [hm] at hn'; cases hn'
    exact hb hn
  · rename_i i hs
    obtain ⟨⟨u, v, rfl, hu⟩, hmin⟩ := find_some hs
    have hlen : (ascii "WEB_PORT").length = 8 := by decide +kernel
    have e1 : (u ++ ascii "WEB_PORT" ++ v).take i = u := by rw [List.append_assoc, ← hu, List.take_left]
    have e2 : (u ++ ascii "WEB_PORT" ++ v).drop (i + 8) = v := by
      rw [← hu, ← hlen, ← List.length_append, List.drop_left]
    rw [e1, e2, List.append_assoc]
    refine .port ⟨List.prefix_append _ _, fun j hj => ?_⟩ (.plain fun j hj => ?_)
    · rw [hu]
      exact hmin j (by rw [List.append_assoc]; exact hj)
    · obtain ⟨a, b, hab, ha⟩ := hj
      have o1 : Occurs (bytes "WEB_PORT") (u ++ ascii "WEB_PORT" ++ v) u.length := ⟨u, v, rfl, rfl⟩
      have o2 : Occurs (bytes "WEB_PORT") (u ++ ascii "WEB_PORT" ++ v) (u ++ ascii "WEB_PORT" ++ a).length :=
        ⟨u ++ ascii "WEB_PORT" ++ a, b, by rw [hab]; simp, rfl⟩
      have := h _ _ o1 o2
      simp only [List.length_append, hlen] at this
      omega

/-- The cache has what the files have. -/
structure Good' (dir : Text) (port : Nat) (files : Files) (w : Web) : Prop where
  hdir : w.dirhtmlfiles = dir
  hport : w.webport = port
  cache : ∀ f c, (f, c) ∈ w.cachehtml → ∃ content, files (place (dir ++ (47 :: f))) = some content ∧ c = fillPort port content

theorem insert_mem {β : Type} {k : Text} {v : β} {m : List (Text × β)} {e : Text × β} (h : e ∈ insert k v m) : e = (k, v) ∨ e ∈ m := by
  induction m with
  | nil => simpa [insert] using h
  | cons a m ih =>
    obtain ⟨k', v'⟩ := a
    simp only [insert] at h
    split at h
    · exact Or.inr h
    · split at h
      · simpa using h
      · rcases List.mem_cons.1 h with e | e
        · exact Or.inr (e ▸ List.mem_cons_self)
        · rcases ih e with e | e
          · exact Or.inl e
          · exact Or.inr (List.mem_cons_of_mem _ e)

theorem getPage_good {dir : Text} {port : Nat} {files : Files} {w : Web} (h : Good' dir port files w) (f : Text) :
    Good' dir port files (getPage files w f).2 ∧
      ((∀ content, files (place (dir ++ (47 :: f))) = some content → (getPage files w f).1 = fillPort port content) ∧
        (files (place (dir ++ (47 :: f))) = none → (getPage files w f).1 = ascii "Error! I cannot find the page to show.")) := by
  unfold getPage
  split
  · rename_i e he
    obtain ⟨f', c⟩ := e
    have h1 : f' = f := by simpa using List.find?_some he
    subst h1
    obtain ⟨content, hc, hc'⟩ := h.cache f' c (List.mem_of_find?_eq_some he)
    refine ⟨h, fun content' e => ?_, fun e => ?_⟩
    · rw [hc] at e; cases e; exact hc'
    · rw [hc] at e; cases e
  · rw [h.hdir, h.hport]
    split
    · rename_i content hc
      refine ⟨⟨rfl, rfl, fun g c hg => ?_⟩, fun content' e => ?_, fun e => ?_⟩
      · rcases insert_mem hg with e | e
        · cases e; exact ⟨content, hc, rfl⟩
        · exact h.cache g c e
      · rw [hc] at e; cases e; rfl
      · rw [hc] at e; cases e
    · rename_i hc
      exact ⟨h, fun content' e => (by rw [hc] at e; cases e), fun _ => rfl⟩

theorem Good'.active {dir : Text} {port : Nat} {files : Files} {w : Web} (h : Good' dir port files w) (b : Bool) : Good' dir port files { w with isActive := b } := ⟨h.hdir, h.hport, h.cache⟩

theorem finish_good {dir : Text} {port : Nat} {files : Files} {w : Web} (h : Good' dir port files w) (json : Bool) (page : Text) : Good' dir port files (finish files w json page).2 := by
  unfold finish
  split
  · exact (getPage_good h _).1.active false
  · exact h.active false

theorem process_good {dir : Text} {port : Nat} {files : Files} {w : Web} (h : Good' dir port files w) (store : Store) (req : Text) : Good' dir port files (processRequest files store w req).2 := by
  unfold processRequest
  simp only
  have h := h.active true
  split
  · exact h
  · split
    · exact h
    · exact finish_good h _ _
  · split
    · exact h
    · exact h
    · split
      · exact h
      · exact finish_good h _ _
  · exact finish_good (getPage_good h _).1 _ _
  · exact finish_good h _ _
  · exact finish_good h _ _

theorem after_good {dir : Text} {port : Nat} {files : Files} (store : Store) (reqs : List Text) {w : Web} (h : Good' dir port files w) : Good' dir port files (after store w (reqs.map (files, ·))) := by
  induction reqs generalizing w with
  | nil => exact h
  | cons r l ih => exact ih (process_good h store r)

/-! ## Names of files -/

theorem parts_ne (t : Text) : parts t ≠ [] := by
  cases t with
  | nil => simp [parts]
  | cons c t =>
    simp only [parts]
    split
    · simp
    · split <;> simp

theorem parts_slash (a b : Text) : parts (a ++ (47 :: b)) = parts a ++ parts b := by
  induction a with
  | nil => simp [parts]
  | cons c a ih =>
    simp only [List.cons_append, parts, ih]
    split
    · rfl
    · rcases hp : parts a with _ | ⟨p, ps⟩
      · exact absurd hp (parts_ne a)
      · simp

theorem place_slash (a b : Text) : place (a ++ (47 :: b)) = (parts b).foldl walk (place a) := by
  rw [place, parts_slash, List.foldl_append]; rfl

theorem walk_plain {l : List Text} (h : [46, 46] ∉ l) (at' : List Text) : ∃ m, l.foldl walk at' = at' ++ m := by
  induction l generalizing at' with
  | nil => exact ⟨[], by simp⟩
  | cons p l ih =>
    obtain ⟨h1, h2⟩ : [46, 46] ≠ p ∧ [46, 46] ∉ l := by simpa using h
    obtain ⟨m, hm⟩ := ih h2 (walk at' p)
    simp only [List.foldl_cons]
    rw [hm]
    unfold walk
    split
    · exact ⟨m, rfl⟩
    · split
      · rename_i e; exact absurd e.symm h1
      · exact ⟨p :: m, by simp⟩

/-- So many times `../`. -/
def ups : Nat → Text
  | 0 => []
  | n + 1 => 46 :: 46 :: 47 :: ups n

theorem parts_ups (n : Nat) (t : Text) : parts (ups n ++ t) = List.replicate n [46, 46] ++ parts t := by
  induction n with
  | zero => rfl
  | succ n ih =>
    simp only [ups, List.cons_append]
    have := parts_slash [46, 46] (ups n ++ t)
    simp only [List.cons_append, List.nil_append] at this
    rw [this, ih]
    simp [parts, List.replicate_succ]

theorem walk_ups (n : Nat) (at' : List Text) (h : at'.length ≤ n) : (List.replicate n [46, 46]).foldl walk at' = [] := by
  induction n generalizing at' with
  | zero => simpa using h
  | succ n ih =>
    rw [List.replicate_succ, List.foldl_cons]
    refine ih _ ?_
    have : walk at' [46, 46] = at'.dropLast := by simp [walk]
    rw [this, List.length_dropLast]
    omega

end Trident.Http
