import Verif.Spec.RecoverWhole
/-!
# Specification: recovering an undamaged file system

In terms of what is stored in the index only: which entries the directories have, where they
belong, and what it means for the index to be undamaged.
-/

namespace Btrfscue

/-- The payload of a directory item: entries — header, name, data — one after the other,
usually just one. -/
inductive PackedEntries : Bytes → List (DirItemRec × Bytes) → Prop
  | nil : PackedEntries [] []
  | cons {e : DirItemRec} {name data rest : Bytes} {es : List (DirItemRec × Bytes)} :
      e.nameLen.toNat = name.length → e.dataLen.toNat = data.length → PackedEntries rest es →
      PackedEntries (e.layout ++ (name ++ (data ++ rest))) ((e, name) :: es)

/-- Directory `d` of tree `o` has entry `e` called `name`: it is one of those in the newest
version of one of its directory items. -/
def Bucket.entryNow (b : Bucket) (o d : UInt64) (name : Bytes) (e : DirItemRec) : Prop :=
  ∃ off g x p es, b.newest o ⟨d, 84, off⟩ g ∧ b.stores ⟨o, ⟨d, 84, off⟩, g⟩ x ∧ holdsItem x p ∧
    PackedEntries p es ∧ (e, name) ∈ es

/-- Tree `o` is a subvolume: it has a root item in the root tree (1). -/
def Bucket.subvolume (b : Bucket) (o : UInt64) : Prop :=
  256 ≤ o ∧ o ≤ LastFreeObjectID ∧ ∃ off, b.hasKey 1 ⟨o, 132, off⟩

/-- Directory `d` of tree `o` belongs at path `p` when recovering to `dest`: the top
directory of the main tree (5) at `dest`; a directory that has an entry in another one
in the place of that directory under its name, likewise the top directory (256) of a
subvolume; each subvolume also at `dest/subvol_N`. -/
inductive Bucket.BelongsAt (b : Bucket) (dest : Bytes) : UInt64 → UInt64 → Bytes → Prop
  | main : BelongsAt b dest 5 256 dest
  | subvolume {o : UInt64} : b.subvolume o →
      BelongsAt b dest o 256 (goJoin dest (ascii "subvol_" ++ decimal o.toNat))
  | dir {o d p name e} : BelongsAt b dest o d p → b.entryNow o d name e → e.typ = 2 → e.location.typ ≠ 132 →
      BelongsAt b dest o e.location.objectID (goJoin p name)
  | tree {o d p name e} : BelongsAt b dest o d p → b.entryNow o d name e → e.location.typ = 132 →
      BelongsAt b dest e.location.objectID 256 (goJoin p name)

/-- The index is that of an undamaged file system, as far as iterating over it goes. All
entries of a directory are of one generation, one entry per item, at the offset that is the
hash of its name, which is no longer than 255 bytes. -/
structure Bucket.Undamaged (b : Bucket) (gc : UInt64) : Prop where
  addr : b.AddrOK gc
  noKL : ∀ o, o ≠ ~~~0 → ¬ b.hasKey o KL0
  dirRange : ∀ o d off, b.hasKey o ⟨d, 84, off⟩ → b.RangeOK o (KL2 84 d)
  dirs : ∀ o d, ∃ g, ∀ off, b.hasKey o ⟨d, 84, off⟩ → b.newest o ⟨d, 84, off⟩ g ∧
    ∃ (x : Bytes) (e : DirItemRec) (name data : Bytes), b.stores ⟨o, ⟨d, 84, off⟩, g⟩ x ∧ holdsItem x (e.layout ++ (name ++ data)) ∧
      e.nameLen.toNat = name.length ∧ e.dataLen.toNat = data.length ∧ name.length ≤ 255 ∧ off = (NameHash name).toUInt64
  extents : ∀ o i off, b.hasKey o ⟨i, 108, off⟩ → b.RangeOK o (KL2 108 i)
  rootRange : b.RangeOK 1 (KL2 132 LastFreeObjectID)
  /-- all root items of subvolumes are of one generation, and if there are any there is a
  subvolume 256 -/
  roots : ∃ g, ∀ o off, 256 ≤ o → o ≤ LastFreeObjectID → b.hasKey 1 ⟨o, 132, off⟩ →
    b.newest 1 ⟨o, 132, off⟩ g ∧ ∃ off', b.hasKey 1 ⟨256, 132, off'⟩

/-- What there is to recover can be recovered, and the names can be used: names are not
empty, "." or "..", and have no slash, backslash or NUL, and paths are not too long for the
host; no entry of the top directory is called `subvol_N` like one of the subvolumes; entries
that lead to trees lead to proper ones; files can be recovered and are on the device; links
have a target the host accepts. -/
structure Bucket.Recoverable (b : Bucket) (gc : UInt64) (D : Bytes) (dest : Bytes) : Prop where
  names : ∀ o d p name e, b.BelongsAt dest o d p → b.entryNow o d name e → Plain name ∧ 92 ∉ name ∧ 0 ∉ name
  destName : 0 ∉ dest
  paths : ∀ o d p name e, b.BelongsAt dest o d p → b.entryNow o d name e → (goJoin p name).length < 4096
  subvols : ∀ o, b.subvolume o → (goJoin dest (ascii "subvol_" ++ decimal o.toNat)).length < 4096 ∧
    ∀ e, ¬ b.entryNow 5 256 (ascii "subvol_" ++ decimal o.toNat) e
  trees : ∀ o d p name e, b.BelongsAt dest o d p → b.entryNow o d name e → e.location.typ = 132 → e.location.objectID ≠ ~~~0
  files : ∀ o d p name e, b.BelongsAt dest o d p → b.entryNow o d name e → e.typ = 1 → e.location.typ ≠ 132 →
    b.recoverable gc o e.location.objectID ∧ ∀ g, b.FileOK o e.location.objectID g gc → b.OnDevice o e.location.objectID g gc D
  links : ∀ o d p name e, b.BelongsAt dest o d p → b.entryNow o d name e → e.typ = 7 → e.location.typ ≠ 132 →
    ∃ x, b.targetIs o e.location.objectID x ∧ x ≠ [] ∧ 0 ∉ x ∧ x.length < 4096

end Btrfscue
