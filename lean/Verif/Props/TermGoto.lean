import Verif.Load.TermGotoProofs
import Verif.Props.Load
import Verif.Query.ReOrder
import Verif.Update.QueryProofs
import Verif.Props.Query
/-!
# C68: jumping to a key in a list of keys

Clients read the keys of an index one by one, and may jump forward to a key.  After a jump to `k` no key from `k` on may be missing, and the next key
should be the first one that is at least `k`.
-/
namespace Trident.Load

/-- The state after the calls `ops` on a fresh iterator. -/
def TermIt.run (m : Mem) (M : Maps) (ops : List TermIt.Op) : TermIt := ops.foldl (TermIt.step m M) (TermIt.init m M)

/-- The files of a store, by the tables in them. -/
theorem idxMapped_of_store (maxSize : Nat) (ts : List Tbl) (m : Mem) (M : Maps)
    (hM : Mapped m M (Store.addAll maxSize ts {}).1.files) (hne : ts ≠ []) (hlen : ts.length < 2 ^ 63)
    (hfit : ∀ t ∈ ts, t.key < 2 ^ 40 ∧ t.strat < 256) (hsort : (ts.map (·.key)).Pairwise (· < ·))
    (hsize : ∀ f ∈ (Store.addAll maxSize ts {}).1.files, f.bytes.length < 2 ^ 40) :
    ∃ tss, IdxMapped m M tss ∧ tss.flatten = ts ∧ 0 < tss.length ∧ enumAll 0 tss = ts.zip (Store.addAll maxSize ts {}).2 := by
  obtain ⟨tss, cur, his, htne, hcne, henum, hl⟩ := Store.Is.addAll (maxSize := maxSize)
    (ts := ts) (s := ({} : Store)) (tss := []) (cur := []) ⟨rfl, rfl⟩ (by simp)
  generalize Store.addAll maxSize ts ({} : Store) = r at *
  simp only [List.nil_append, enumAll, enumFile] at henum
  have hfiles : r.1.files = (tss ++ [cur]).map fileOf := by
    rw [Store.files, his.1, his.2]; simp
  have hflat : (tss ++ [cur]).flatten = ts := by
    have := congrArg (List.map (·.1)) henum
    rw [enumAll_fst, List.map_fst_zip (by omega)] at this
    exact this
  rw [hfiles] at hM hsize
  refine ⟨tss ++ [cur], ⟨by rw [hM.1, List.length_map], ?_, ?_, ?_, by rw [hflat]; exact hsort⟩, hflat, by simp, henum⟩
  · intro f h
    have := (hM.2 f (by rw [List.length_map]; exact h)).2.1
    simpa only [List.getElem_map] using this
  · intro us hmem
    refine ⟨hsize _ (List.mem_map.2 ⟨us, hmem, rfl⟩), ?_, ?_⟩
    · have := (List.sublist_flatten_of_mem hmem).length_le
      rw [hflat] at this; omega
    · intro t ht
      exact hfit t (hflat ▸ List.mem_flatten.2 ⟨us, hmem, ht⟩)
  · intro us hus
    rcases List.mem_append.1 hus with h | h
    · exact htne us h
    · rw [List.mem_singleton] at h; subst h
      exact hcne (.inr hne)

/-- After any calls, the entries to come are the last ones of the list. -/
theorem IdxMapped.rest_run {m : Mem} {M : Maps} {tss : List (List Tbl)} (h : IdxMapped m M tss) (hpos : 0 < tss.length) (ops : List TermIt.Op) :
    ∃ done rest, enumAll 0 tss = done ++ rest ∧ TermIt.Rest M tss (TermIt.run m M ops) rest := by
  have key : ∀ (ops : List TermIt.Op) (s : TermIt) (done rest : List (Tbl × Nat × Nat)), enumAll 0 tss = done ++ rest → TermIt.Rest M tss s rest →
      ∃ done rest, enumAll 0 tss = done ++ rest ∧ TermIt.Rest M tss (ops.foldl (TermIt.step m M) s) rest := by
    intro ops
    induction ops with
    | nil => intro s done rest e hr; exact ⟨done, rest, e, hr⟩
    | cons op ops ih =>
      intro s done rest e hr
      rw [List.foldl_cons]
      cases op with
      | read =>
        cases rest with
        | nil => exact ih _ done [] e (h.rest_read hr)
        | cons x rest => exact ih _ (done ++ [x]) rest (by rw [e]; simp) (h.rest_read hr)
      | jump k =>
        obtain ⟨pre, l', a, b, -, -⟩ := h.rest_jump k _ s rest rfl hr
        exact ih _ (done ++ pre) l' (by rw [e, a, List.append_assoc]) b
  exact key ops _ [] _ rfl (h.rest_init hpos)

/-- C68: after any sequence of reads and jumps, what is still to be read is the last part of the list of tables; a further jump to `k` leaves out only
tables with keys less than `k`; and it leaves out all tables if all keys to come are less than `k`.
Missing: that the next key is at least `k`, which is false (`C68_jump_violated`). -/
theorem C68_jump_partial (maxSize : Nat) (ts : List Tbl) (m : Mem) (M : Maps)
    (hM : Mapped m M (Store.addAll maxSize ts {}).1.files) (hne : ts ≠ []) (hlen : ts.length < 2 ^ 63)
    (hfit : ∀ t ∈ ts, t.key < 2 ^ 40 ∧ t.strat < 256) (hsort : (ts.map (·.key)).Pairwise (· < ·))
    (hsize : ∀ f ∈ (Store.addAll maxSize ts {}).1.files, f.bytes.length < 2 ^ 40) (ops : List TermIt.Op) (k : Int) :
    ∃ done skipped rest, ts = done ++ (skipped ++ rest) ∧
      (∃ rows, Yields (TermIt.itr m M) (TermIt.run m M ops) rows ∧ rows.map (·.1) = (skipped ++ rest).map (·.key)) ∧
      (∃ rows, Yields (TermIt.itr m M) (TermIt.gotoKey m M k (TermIt.run m M ops)) rows ∧ rows.map (·.1) = rest.map (·.key)) ∧
      (∀ t ∈ skipped, (t.key : Int) < k) ∧ ((∀ t ∈ skipped ++ rest, (t.key : Int) < k) → rest = []) := by
  obtain ⟨tss, h, hflat, hpos, -⟩ := idxMapped_of_store maxSize ts m M hM hne hlen hfit hsort hsize
  obtain ⟨done, rest, e, hr⟩ := h.rest_run hpos ops
  obtain ⟨pre, l', a, b, c, d⟩ := h.rest_jump k _ _ rest rfl hr
  have hk : ∀ l : List (Tbl × Nat × Nat), (l.map termRow).map (·.1) = (l.map (·.1)).map (·.key) := by
    intro l; rw [List.map_map, List.map_map]; rfl
  refine ⟨done.map (·.1), pre.map (·.1), l'.map (·.1), ?_, ⟨_, h.yields hr, ?_⟩, ⟨_, h.yields b, hk l'⟩, ?_, ?_⟩
  · rw [← hflat, ← enumAll_fst 0, e, a]; simp
  · rw [hk, a, List.map_append]
  · intro t ht
    obtain ⟨x, hx, rfl⟩ := List.mem_map.1 ht
    exact c x hx
  · intro hall
    by_cases hx : ∃ x, x ∈ rest
    · rw [d (fun x hx => hall x.1 ?_) hx, List.map_nil]
      rw [← List.map_append, ← a]
      exact List.mem_map.2 ⟨x, hx, rfl⟩
    · cases l' with
      | nil => rfl
      | cons y l' => exact absurd ⟨y, by rw [a]; simp⟩ hx

/-- C68 is violated: with all keys below `2^24` (and none 0) a jump from a fresh iterator to a key that is in the range of the first file does nothing at
all, so the whole list is still returned, with all the keys less than `k`.  (For one file: any `k` up to the last key.) -/
theorem C68_jump_violated (maxSize : Nat) (ts : List Tbl) (m : Mem) (M : Maps)
    (hM : Mapped m M (Store.addAll maxSize ts {}).1.files) (hne : ts ≠ []) (hlen : ts.length < 2 ^ 63)
    (hfit : ∀ t ∈ ts, t.key < 2 ^ 40 ∧ t.strat < 256) (hsort : (ts.map (·.key)).Pairwise (· < ·))
    (hsize : ∀ f ∈ (Store.addAll maxSize ts {}).1.files, f.bytes.length < 2 ^ 40)
    (hpos : ∀ t ∈ ts, 1 ≤ t.key) (hone : (Store.addAll maxSize ts {}).1.files.length = 1) (k : Int) (hk : k < 2 ^ 24) (hlast : ∃ t ∈ ts, k ≤ t.key) :
    Yields (TermIt.itr m M) (TermIt.gotoKey m M k (TermIt.init m M))
      ((ts.zip (Store.addAll maxSize ts {}).2).map fun x => (x.1.key, x.2.1, (x.2.2 : Int), x.1.strat)) := by
  obtain ⟨tss, h, hflat, hp, henum⟩ := idxMapped_of_store maxSize ts m M hM hne hlen hfit hsort hsize
  have hl : tss.length = 1 := by rw [← h.n, hM.1, hone]
  have hr := h.rest_init hp
  have hy := h.yields hr
  rw [henum] at hy
  suffices e : TermIt.gotoKey m M k (TermIt.init m M) = TermIt.init m M by rw [e]; exact hy
  have hp0 := (parse_eq (size := M.size 0) (h.idx 0 hp) (h.fits _ (List.getElem_mem hp))).1
  have hinit : TermIt.init m M = ⟨0, -1, M.idx 0 + 8 + 0 * 11, M.idx 0 + 8 + tss[0].length * 11, 0⟩ := by
    unfold TermIt.init; rw [hp0]
  have h0 : tss[0] = ts := by
    rw [← hflat]
    match tss, hl, hp with
    | [a], _, _ => simp
  have hlp : 0 < tss[0].length := List.length_pos_iff.2 (h.ne _ (List.getElem_mem hp))
  have hk' := h.key hp (i := tss[0].length - 1) (by omega)
  have hle : k ≤ (tss[0][tss[0].length - 1]'(by omega)).key := by
    obtain ⟨t, ht, hkt⟩ := hlast
    rw [← h0] at ht
    obtain ⟨i, hi, rfl⟩ := List.mem_iff_getElem.1 ht
    by_cases hie : i = tss[0].length - 1
    · subst hie; exact hkt
    · have := h.lt hp (i := i) (j := tss[0].length - 1) (by omega) (by omega); omega
  rw [hinit, TermIt.gotoKey]
  dsimp only
  rw [if_neg]
  · rw [h.search_small hp k hk _ 0 tss[0].length rfl (by omega) (Nat.le_refl _) fun x hx _ => hpos _ (h0 ▸ List.getElem_mem hx)]
    simp
  · rw [show M.idx 0 + 8 + tss[0].length * 11 - 6 = M.idx 0 + 8 + (tss[0].length - 1) * 11 + 5 by omega, hk']
    omega

end Trident.Load

namespace Trident

/-- C68 is violated too when reading the triples of all keys: if the client has asked whether there is a next triple, and there is one, then after a
jump, to whatever key, the answer stays yes; nothing is looked up.  (Even if no key is left.) -/
theorem C68_scan_jump_after_hasNext_violated (kb : KB) (G : KeySeek) (k : Int) (s : Scan.St) (h : (Scan.hasNext kb s).1 = true) :
    (Scan.hasNext kb (Scan.gotoKey G k (Scan.hasNext kb s).2)).1 = true := by
  have hc : (Scan.hasNext kb s).2.hnc = true ∧ (Scan.hasNext kb s).2.hn = true := by
    by_cases hs : s.hnc = true
    · have e : Scan.hasNext kb s = (s.hn, s) := by unfold Scan.hasNext; rw [if_pos hs]
      rw [e] at h ⊢
      exact ⟨hs, h⟩
    · unfold Scan.hasNext at h ⊢
      rw [if_neg hs] at h ⊢
      cases hcur : s.cur with
      | none =>
        simp only [hcur] at h ⊢
        have := scan_moveKey_hnc s
        rw [h] at this; exact this
      | some c =>
        simp only [hcur] at h ⊢
        by_cases hh : ((Src.itr kb.mem).hasNext c).1 = true
        · rw [if_pos hh]; exact ⟨rfl, rfl⟩
        · rw [if_neg hh] at h ⊢
          have := scan_moveKey_hnc { s with cur := none }
          rw [h] at this; exact this
  have hg : (Scan.gotoKey G k (Scan.hasNext kb s).2).hnc = true ∧ (Scan.gotoKey G k (Scan.hasNext kb s).2).hn = true := by
    unfold Scan.gotoKey; split <;> exact hc
  unfold Scan.hasNext at hg ⊢
  rw [if_pos hg.1]
  exact hg.2

/-! ## Examples -/

open Load

/-- Keys 7, 8, 9 in two files: after reading one key and jumping to 10, nothing is left; the keys are increasing. -/
def exTbls : List Tbl := [⟨7, 1, [1, 2, 3, 4]⟩, ⟨8, 1, [5]⟩, ⟨9, 2, [6, 7]⟩]

example : ∃ m M, Mapped m M (Store.addAll 3 exTbls {}).1.files ∧ Yields (TermIt.itr m M) (TermIt.gotoKey m M 10 (TermIt.run m M [.read])) [] := by
  obtain ⟨m, M, h⟩ := exists_mapped fun _ => (Store.addAll 3 exTbls {}).1.files
  refine ⟨m, M 0, h 0 (by omega), ?_⟩
  obtain ⟨done, sk, rest, a, -, ⟨rows, c, c'⟩, -, e⟩ := C68_jump_partial 3 exTbls m (M 0) (h 0 (by omega)) (by decide) (by decide) (by decide) (by decide)
    (by decide +kernel) [.read] 10
  have hall : ∀ t ∈ exTbls, (t.key : Int) < 10 := by decide
  rw [e fun t ht => hall t (by rw [a]; exact List.mem_append.2 (.inr ht))] at c'
  rw [List.map_nil, List.map_eq_nil_iff] at c'
  exact c' ▸ c

/-- The same keys in one file: after a jump to 9, the keys 7 and 8 are returned nevertheless. -/
example : ∃ m M, Mapped m M (Store.addAll 100 exTbls {}).1.files ∧
    Yields (TermIt.itr m M) (TermIt.gotoKey m M 9 (TermIt.init m M)) [(7, 0, 0, 1), (8, 0, 1, 1), (9, 0, 2, 2)] := by
  obtain ⟨m, M, h⟩ := exists_mapped fun _ => (Store.addAll 100 exTbls {}).1.files
  exact ⟨m, M 0, h 0 (by omega), C68_jump_violated 100 exTbls m (M 0) (h 0 (by omega)) (by decide) (by decide) (by decide) (by decide)
    (by decide +kernel) (by decide) (by decide +kernel) 9 (by decide) ⟨⟨9, 2, [6, 7]⟩, by decide, by decide⟩⟩

/-- A scan over one key: it says that there is a next row, also after a jump beyond the last key that leaves no key. -/
example (kb : KB) (c : Coord) : let s := (Scan.hasNext kb ⟨some (Scan.termInit [(7, c)]), none, none, false, false, 0⟩).2
    (Scan.hasNext kb (Scan.gotoKey (fun _ t => ⟨t.cur, []⟩) 8 s)).1 = true ∧
    (Scan.gotoKey (fun _ t => ⟨t.cur, []⟩) 8 s).i1 = some ⟨(7, c), []⟩ :=
  ⟨C68_scan_jump_after_hasNext_violated kb _ 8 _ rfl, rfl⟩

end Trident
