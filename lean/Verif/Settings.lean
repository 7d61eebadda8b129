import Verif.Api

set_option autoImplicit false

/-!
# Settings of an index and of a reload
-/

namespace Verif
variable {T : Type}

/-- `set_extend_candidates` (/repo/src/hnsw.rs 855-857). -/
def Hnsw.setExtend (h : Hnsw T) (flag : Bool) : Hnsw T := { h with cfg := { h.cfg with extend := flag } }

/-- `set_keeping_pruned` (/repo/src/hnsw.rs 842-844). -/
def Hnsw.setKeepPruned (h : Hnsw T) (flag : Bool) : Hnsw T :=
  { h with cfg := { h.cfg with keepPruned := flag } }

/-- `set_searching_mode` (/repo/src/hnsw.rs 831-834): the flag is not read anywhere, and is not in the
model of an index. -/
def Hnsw.setSearchingMode (h : Hnsw T) (_ : Bool) : Hnsw T := h

/-- calls of the functions that change the settings of an index -/
inductive Setting where
  | extend (flag : Bool)
  | keepPruned (flag : Bool)
  | searching (flag : Bool)
  | scale (f : F64)

/-- the call -/
def Setting.apply (h : Hnsw T) : Setting → Hnsw T
  | .extend b => h.setExtend b
  | .keepPruned b => h.setKeepPruned b
  | .searching b => h.setSearchingMode b
  | .scale f => h.modifyScale f

/-- calls of the functions that change the options of a reload -/
inductive OptCall where
  | mmap (val : Bool)
  | threshold (t : Nat)

/-- the call -/
def OptCall.apply (o : ReloadOptions) : OptCall → ReloadOptions
  | .mmap b => o.setMmap b
  | .threshold t => o.setThreshold t

/-- `ReloadOptions::new` (/repo/src/hnswio.rs 107-112) -/
def ReloadOptions.new (datamap : Bool) : ReloadOptions := ⟨datamap, 0⟩

/-- `ReloadOptions::use_mmap` (/repo/src/hnswio.rs 132-134) -/
def ReloadOptions.useMmap (o : ReloadOptions) : Bool × Nat := (o.datamap, o.threshold)

end Verif
