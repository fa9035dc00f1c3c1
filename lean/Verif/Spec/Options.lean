import Verif.Model.Options
/-
Specification vocabulary for options and configuration.
-/
namespace Verif.Spec.Options
open Verif.Dn Verif.Connector
open Verif.Options (Section)

/-- The value of an option is `BASEDN:HOST` or `BASEDN:HOST:PORT`, and says that. -/
def OptionSays (U : Unicode) (value : Str) (item : Dn × Location) : Prop :=
  ∃ base rest, value = base ++ ':' :: rest ∧ ':' ∉ base ∧ Dn.parse U base = .ok item.1 ∧
    ((':' ∉ rest ∧ item.2 = ⟨some rest, none⟩) ∨
     ∃ host port, rest = host ++ ':' :: port ∧ ':' ∉ host ∧ item.2 = ⟨some host, some (.text port)⟩)

/-- `t` is `s` without the white space around it. -/
def Trimmed (U : Unicode) (s t : Str) : Prop :=
  ∃ a b, s = a ++ t ++ b ∧ (∀ c ∈ a, U.space c = true) ∧ (∀ c ∈ b, U.space c = true) ∧
    (∀ c r, t = c :: r → U.space c = false) ∧ ∀ c r, t = r ++ [c] → U.space c = false

/-- The section is named `service-location ...`, in any case. -/
def Named (U : Unicode) (x : Section) : Prop := ∃ t, U.lower x.name = "service-location ".toList ++ t

/-- The value of an option in the file: given and not empty. -/
def Value (given : Option Str) (v : Option Str) : Prop :=
  (v = none ∧ (given = none ∨ given = some [])) ∨ ∃ c s, v = some (c :: s) ∧ given = some (c :: s)

/-- What a section for service locations says. -/
def SectionSays (U : Unicode) (x : Section) (item : Dn × Location) : Prop :=
  ∃ base host port, Trimmed U (x.name.drop "service-location ".length) base ∧ Dn.parse U base = .ok item.1 ∧
    Value x.host host ∧ Value x.port port ∧ item.2 = ⟨host, port.map .text⟩

/-- What the sections of a file say, in order. -/
inductive FileSays (U : Unicode) : List Section → List (Dn × Location) → Prop
  | nil : FileSays U [] []
  | other {x xs items} : ¬ Named U x → FileSays U xs items → FileSays U (x :: xs) items
  | one {x xs item items} : Named U x → SectionSays U x item → FileSays U xs items → FileSays U (x :: xs) (item :: items)

end Verif.Spec.Options
