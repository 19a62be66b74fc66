import Verif.Http.FormSpec
/-!
Specification: names of files, what a page shows, and the text of a term.
-/
namespace Trident.Http.Spec

/-- The parts of a name between slashes. -/
def parts : List Nat → List (List Nat)
  | [] => [[]]
  | c :: t => if c = 47 then [] :: parts t else match parts t with
    | p :: ps => (c :: p) :: ps
    | [] => [[c]]

/-- One step of the resolution of a name (POSIX, section 4.16, without symbolic links): nothing and `.` stay, `..` goes to the parent, the parent of the root is the root. -/
def walk (at' : List (List Nat)) (p : List Nat) : List (List Nat) :=
  if p = [] ∨ p = [46] then at' else if p = [46, 46] then at'.dropLast else at' ++ [p]

/-- The place in the tree of files that an absolute name stands for. -/
def place (name : List Nat) : List (List Nat) := (parts name).foldl walk []

/-- A tree of files: what the file at a place contains; `none` if there is nothing at that place.  A directory reads as empty. -/
abbrev Files := List (List Nat) → Option (List Nat)

/-- `Under dir at'`: the place is below the directory. -/
def Under (dir : List Nat) (at' : List (List Nat)) : Prop := place dir <+: at'

/-- `Shows port content page`: the page is the content with each `WEB_PORT` replaced by the number of the port. -/
inductive Shows (port : Nat) : List Nat → List Nat → Prop
  | plain {t} : (∀ i, ¬ Occurs (bytes "WEB_PORT") t i) → Shows port t t
  | port {a t page} : First (bytes "WEB_PORT") a (bytes "WEB_PORT" ++ t) → Shows port t page →
      Shows port (a ++ (bytes "WEB_PORT" ++ t)) (a ++ (bytes (toString port) ++ page))

/-- `Label term s`: the text of a term of the store without the angle brackets of an IRI. -/
inductive Label : List Nat → List Nat → Prop
  | iri {s} : Label (60 :: (s ++ [62])) s
  | other {c s} : c ≠ 60 → Label (c :: s) (c :: s)

end Trident.Http.Spec
