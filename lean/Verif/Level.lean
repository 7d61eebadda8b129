import Verif.F64
import Verif.Basic

set_option autoImplicit false

/-!
# The generator of levels
-/

namespace Verif

/-- `LayerGenerator` (/repo/src/hnsw.rs 317-323) without the random generator, whose outputs are
arguments of `generate`. -/
structure LayerGen where
  scale : F64
  maxlevel : Nat
deriving DecidableEq

namespace LayerGen

/-- `LayerGenerator::new` (/repo/src/hnsw.rs 326-334); `defScale m` is `1. / (m as f64).ln()`, any
function. -/
def new (defScale : Nat → F64) (maxNb maxlevel : Nat) : LayerGen := ⟨defScale maxNb, maxlevel⟩

/-- `new_with_scale` (/repo/src/hnsw.rs 337-349). -/
def newWithScale (defScale : Nat → F64) (maxNb : Nat) (factor : F64) (maxlevel : Nat) : LayerGen :=
  ⟨F64.mul (defScale maxNb) factor, maxlevel⟩

/-- `generate` (/repo/src/hnsw.rs 359-370). `level` is `-xsi.ln() * self.scale`, any double;
`draw` is the sample of `Uniform::new(0, maxlevel)`, whose creation panics if `maxlevel` is 0. -/
def generate (g : LayerGen) (level : F64) (draw : Nat) : Except Panic Nat :=
  let ulevel := level.floorUsize
  if g.maxlevel ≤ ulevel then
    if g.maxlevel = 0 then .error .assertion else .ok draw
  else .ok ulevel

/-- `set_scale_modification` (/repo/src/hnsw.rs 373-376). -/
def setScaleModification (g : LayerGen) (f : F64) : LayerGen := { g with scale := F64.mul g.scale f }

/-- `Hnsw::modify_level_scale` (/repo/src/hnsw.rs 869-894), messages left out. -/
def modifyLevelScale (g : LayerGen) (f : F64) : LayerGen :=
  g.setScaleModification (F64.min (F64.max f F64.fifth) F64.one)

end LayerGen
end Verif
