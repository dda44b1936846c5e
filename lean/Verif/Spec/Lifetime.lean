import Verif.Model.Lifetime
/-
When a history of object constructions, uses and destructions respects the rules of C++ object lifetime, stated on the history alone.
-/
namespace SFK
namespace Life

/-- The kind of the object called `i` that exists after the history `h`, if any: the last construction or destruction of `i` decides. -/
def kindAfter (h : List Op) (i : Nat) : Option Kind :=
  h.foldl (fun acc o => match o with
    | .new j k => if j = i then some k else acc
    | .del j => if j = i then none else acc
    | .use _ => acc) none

/-- A program that respects the lifetimes of its objects: it constructs an object under a name not in use, and uses and destroys only objects that exist. -/
def Legit (h : List Op) : Prop :=
  (∀ a i k b, h = a ++ .new i k :: b → kindAfter a i = none) ∧
  (∀ a i b, h = a ++ .use i :: b → kindAfter a i ≠ none) ∧
  (∀ a i b, h = a ++ .del i :: b → kindAfter a i ≠ none)

/-- objects that contain a Chebyshev transform -/
def hasCheb (c : Cfg) : Kind → Prop
  | .cheb => True
  | .sphere => False
  | .grid => c.useCheb = true

/-- Whenever an object with a Chebyshev transform is destroyed, it is not a whole Grid, and no other object existing at that moment is used or destroyed afterwards. -/
def NoForeignCleanup (c : Cfg) (h : List Op) : Prop :=
  ∀ a i b k, h = a ++ .del i :: b → kindAfter a i = some k → hasCheb c k →
    k ≠ .grid ∧ ∀ j, j ≠ i → kindAfter a j ≠ none → .use j ∉ b ∧ .del j ∉ b

end Life
end SFK
