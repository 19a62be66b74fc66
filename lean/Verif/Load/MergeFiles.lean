import Verif.Load.PermSorterProofs
/-!
# Merging the sorted chunks

loader.cpp `mergeDiskFragments` merges the files of a permutation in groups of four until at most two are left; `insert` merges those.
The mergers themselves (kognac `FastFileMerger`, `FileMerger`) are functions with the specification `Merges`.
-/
namespace Trident.PermSorter
open Trident.Load

/-- loader.cpp:968-975: groups of up to four files. -/
def groups4 {α : Type} : List α → List (List α)
  | [] => []
  | a :: b :: c :: d :: r => [a, b, c, d] :: groups4 r
  | l => [l]

/-- loader.cpp:956-1014 `mergeDiskFragments`: `order` is the order in which the directory lists the files. -/
def mergeDisk (mrg : List (List T3) → List T3) (order : List (List T3) → List (List T3)) : Nat → List (List T3) → List (List T3)
  | 0, fs => fs
  | k + 1, fs => if fs.length ≤ 2 then fs else mergeDisk mrg order k (order ((groups4 fs).map mrg))

/-- loader.cpp:1044-1045: the rows that `Loader::insert` reads, for the files of a permutation. -/
def feed (mrg : List (List T3) → List T3) (order : List (List T3) → List (List T3)) (fs : List (List T3)) : List T3 :=
  mrg (mergeDisk mrg order fs.length (order fs))

/-- What is known of the mergers: from sorted files they make one sorted stream with all rows. -/
def Merges (mrg : List (List T3) → List T3) : Prop := ∀ fs, (∀ f ∈ fs, f.Pairwise rowLe) → (mrg fs).Perm fs.flatten ∧ (mrg fs).Pairwise rowLe

theorem groups4_flatten {α : Type} : ∀ l : List α, (groups4 l).flatten = l
  | [] => rfl
  | [_] => rfl
  | [_, _] => rfl
  | [_, _, _] => rfl
  | a :: b :: c :: d :: r => by
    rw [groups4, List.flatten_cons, groups4_flatten r]
    rfl

theorem groups4_length {α : Type} : ∀ l : List α, (groups4 l).length ≤ (l.length + 3) / 4
  | [] => by simp [groups4]
  | [_] => by simp [groups4]
  | [_, _] => by simp [groups4]
  | [_, _, _] => by simp [groups4]
  | a :: b :: c :: d :: r => by
    have := groups4_length r
    rw [groups4]
    simp only [List.length_cons]
    omega

theorem merge_groups {mrg : List (List T3) → List T3} (hm : Merges mrg) {fs : List (List T3)} (h : ∀ f ∈ fs, f.Pairwise rowLe) :
    ((groups4 fs).map mrg).flatten.Perm fs.flatten ∧ ∀ f ∈ (groups4 fs).map mrg, f.Pairwise rowLe := by
  have gen : ∀ gs : List (List (List T3)), (∀ g ∈ gs, ∀ f ∈ g, f.Pairwise rowLe) →
      (gs.map mrg).flatten.Perm gs.flatten.flatten ∧ ∀ f ∈ gs.map mrg, f.Pairwise rowLe := by
    intro gs
    induction gs with
    | nil => intro _; exact ⟨.refl _, by simp⟩
    | cons g gs ih =>
      intro hg
      obtain ⟨a, b⟩ := ih fun x hx => hg x (by simp [hx])
      obtain ⟨c, d⟩ := hm g (hg g (by simp))
      refine ⟨?_, ?_⟩
      · rw [List.map_cons, List.flatten_cons, List.flatten_cons, List.flatten_append]
        exact c.append a
      · intro f hf
        rw [List.map_cons] at hf
        rcases List.mem_cons.1 hf with rfl | hf
        · exact d
        · exact b f hf
  have := gen (groups4 fs) (by
    intro g hg f hf
    refine h f ?_
    rw [← groups4_flatten fs]
    exact List.mem_flatten.2 ⟨g, hg, hf⟩)
  rwa [groups4_flatten] at this

theorem mergeDisk_spec {mrg : List (List T3) → List T3} (hm : Merges mrg) {order : List (List T3) → List (List T3)} (ho : ∀ l, (order l).Perm l) :
    ∀ (k : Nat) (fs : List (List T3)), fs.length ≤ k → (∀ f ∈ fs, f.Pairwise rowLe) →
      (mergeDisk mrg order k fs).flatten.Perm fs.flatten ∧ (∀ f ∈ mergeDisk mrg order k fs, f.Pairwise rowLe) ∧ (mergeDisk mrg order k fs).length ≤ 2
  | 0, fs, hk, h => ⟨.refl _, h, by rw [mergeDisk]; omega⟩
  | k + 1, fs, hk, h => by
    rw [mergeDisk]
    by_cases h2 : fs.length ≤ 2
    · rw [if_pos h2]
      exact ⟨.refl _, h, h2⟩
    · rw [if_neg h2]
      obtain ⟨a, b⟩ := merge_groups hm h
      have hl := (ho ((groups4 fs).map mrg)).length_eq
      rw [List.length_map] at hl
      have hg := groups4_length fs
      obtain ⟨c, d, e⟩ := mergeDisk_spec hm ho k (order ((groups4 fs).map mrg)) (by omega) (fun f hf => b f ((ho _).mem_iff.1 hf))
      exact ⟨c.trans ((ho _).flatten.trans a), d, e⟩

theorem feed_spec {mrg : List (List T3) → List T3} (hm : Merges mrg) {order : List (List T3) → List (List T3)} (ho : ∀ l, (order l).Perm l)
    {fs : List (List T3)} (h : ∀ f ∈ fs, f.Pairwise rowLe) : (feed mrg order fs).Perm fs.flatten ∧ (feed mrg order fs).Pairwise rowLe := by
  obtain ⟨a, b, -⟩ := mergeDisk_spec hm ho fs.length (order fs) (by rw [(ho fs).length_eq]; exact Nat.le_refl _) (fun f hf => h f ((ho fs).mem_iff.1 hf))
  obtain ⟨c, d⟩ := hm _ b
  exact ⟨c.trans (a.trans (ho fs).flatten), d⟩

theorem rowLe_antisymm {a b : T3} (h : rowLe a b) (h' : rowLe b a) : a = b := by
  obtain ⟨a1, a2, a3⟩ := a
  obtain ⟨b1, b2, b3⟩ := b
  simp only [rowLe] at h h'
  have : a1 = b1 ∧ a2 = b2 ∧ a3 = b3 := by omega
  obtain ⟨rfl, rfl, rfl⟩ := this
  rfl

end Trident.PermSorter
