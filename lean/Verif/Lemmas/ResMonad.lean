import Verif.Model.Res
/-
The laws of the outcome monad.
-/
namespace Conduit

instance : LawfulMonad Res := LawfulMonad.mk' Res
  (id_map := fun x => by cases x <;> rfl)
  (pure_bind := fun _ _ => rfl)
  (bind_assoc := fun x f g => by cases x <;> rfl)

end Conduit
