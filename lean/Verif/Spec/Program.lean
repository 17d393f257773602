import Verif.Model.Program
/-!
# Specification: command lines the program refuses
-/

namespace Btrfscue

/-- The number of arguments a command takes. -/
def takesArgs : Command → Nat → Prop
  | .identify _, n => n = 1
  | .recon _, n => n = 1
  | .recover _, n => n = 2
  | .mount, n => n = 1 ∨ n = 2
  | .dumpIndex, n => n = 0
  | .ls _, _ => True
  | .completion _, _ => True

/-- The commands that work on a metadata file. -/
def usesMetadata : Command → Prop
  | .identify _ => False
  | .completion _ => False
  | _ => True

/-- The device at this path cannot be used with this block size: it cannot be opened, its
size cannot be determined, or it is smaller than 64 MiB and 100 blocks. -/
def deviceUnfit {F : Type} (m : Machine F) (p : Bytes) (bs : UInt64) : Prop :=
  ∀ d size, m.openFile p = some d → d.seek = some size → size.toNat < 64 * 2 ^ 20 + 100 * bs.toNat

/-- The metadata file cannot be opened for reading: it is missing, not a database, or has
no index of the right version. -/
def metadataUnfit (f : DBFile) : Prop := ∀ f' ix, OpenReadOnly f ≠ .ok (f', .ok ix)

/-- The metadata file cannot take the items of this file system: it is not a database, or
holds an index of another version, block size or file system. -/
def metadataOther (f : DBFile) (bs : UInt64) (id : UUID) : Prop :=
  ∃ f' e, Open f { blockSize := bs, fsid := id, generation := ~~~0 } = .ok (f', .error e)

/-- What is wrong with a command line: the number of arguments, a missing option, or a
file it names. -/
def badLine {F : Type} (m : Machine F) (g : Globals) (c : Command) (args : List Bytes) (f : DBFile) : Prop :=
  ¬ takesArgs c args.length ∨ (usesMetadata c ∧ g.metadata = []) ∨
  match c, args with
  | .identify _, [p] => deviceUnfit m p g.blockSize
  | .recon o, [p] => (∀ b ∈ o.id.val, b = 0) ∨ deviceUnfit m p g.blockSize ∨
    (g.blockSize ≠ 0 ∧ metadataOther f g.blockSize o.id)
  | .recover _, [p, _] => metadataUnfit f ∨ m.openFile p = none
  | .mount, [p, _] => metadataUnfit f ∨ m.openFile p = none
  | .mount, _ => metadataUnfit f
  | .ls _, _ => metadataUnfit f
  | .dumpIndex, _ => metadataUnfit f
  | _, _ => False

end Btrfscue
