import Verif.Model.Files

/-! # What it means for stored results to be those of the structure -/

namespace Rayflare.Spec

open Rayflare.Model

variable {γ σ : Type*}

/-- The conditions under which the file names of a structure cannot clash: interface names are distinct, none is an absolute path,
and no name of an RT_TMM interface is another interface's name followed by `frontprofmat`/`rearprofmat`. -/
structure NamesOk (l : List (Iface γ σ)) : Prop where
  distinct : (l.map Iface.name).Nodup
  relative : ∀ i ∈ l, i.name.head? ≠ some '/'
  noClash : ∀ i ∈ l, ∀ j ∈ l, ∀ side : Side, i.method = .RT_TMM → i.name ≠ j.name ++ side.str ++ "profmat".toList

/-- The table an interface's own lookup-table calculation would give, for `RT_TMM`. -/
def ownTable (i : Iface γ σ) : Option γ := if i.method = .RT_TMM then some i.lut else none

/-- The stored matrices of `(i, side)` are all there, are those computed for `i` and `side` (with `i`'s own lookup table), and
all come from one and the same calculation (one seed). -/
def Consistent (sp : Str) (fs : FS γ) (i : Iface γ σ) (side : Side) : Prop :=
  ∃ seed : σ, ∀ k ∈ requiredKinds i.calcProf,
    fs (matPath sp i.name side k) = some (.whole (i.compute side seed (ownTable i) k))

/-- No file of the structure exists yet. -/
def Fresh (sp : Str) (l : List (Iface γ σ)) (fs : FS γ) : Prop :=
  ∀ i ∈ l, fs (lutPath sp i.name) = none ∧ ∀ side k, fs (matPath sp i.name side k) = none

/-- A lookup table made with `prof_layers` contains the profile coefficients. -/
def TablesOk (hasProf : γ → Bool) (l : List (Iface γ σ)) : Prop :=
  ∀ i ∈ l, i.method = .RT_TMM → i.prof = true → hasProf i.lut = true

end Rayflare.Spec
