import Verif.Spec.RecoverReach
import Verif.Model.RecoverSay
/-!
# Specification: what `recover --verbose` is to say
-/

namespace Btrfscue

/-- The wording of the messages; `%` stands for the next argument. -/
def Line.wording : Line → Bytes × List Bytes
  | .root o => (ascii "Recovering root directory tree from subvolume %...\n", [decimal o.toNat])
  | .subvol o p => (ascii "Recovering unreferenced subvolume % to %...\n", [decimal o.toNat, p])
  | .special p t => (ascii "skipping special file % of type %\n", [p, decimal t.toNat])
  | .fileExists p => (ascii "file % already exists, skipping (--clobber not specified)\n", [p])
  | .file p n => (ascii "recovering file: % (size: %)\n", [p, decimal n.toNat])
  | .linkExists p => (ascii "symlink % already exists, skipping (--clobber not specified)\n", [p])
  | .link p t => (ascii "recovering symlink: % -> %\n", [p, t])
  | .stripe l o g => (ascii "stripe: % => % @ %\n", [decimal l.toNat, decimal o.toNat, decimal g.toNat])

/-- Fill in the arguments. -/
def fillIn : Bytes → List Bytes → Bytes
  | [], _ => []
  | c :: r, as =>
    if c = 37 then
      match as with
      | [] => fillIn r []
      | a :: as => a ++ fillIn r as
    else c :: fillIn r as

/-- What the user reads. -/
def Line.reads (l : Line) : Bytes := fillIn l.wording.1 l.wording.2

/-- The path `q` is that of an entry of type `ty`, not a tree of its own, that leads to object `i` of
tree `o`: listed, with a usable name without backslash, in a directory that was entered. -/
def Talk.isEntry (ix : Ix) (t : Talk) (q : Bytes) (ty : UInt8) (o i : UInt64) : Prop :=
  ∃ d p di name loc, Ev.enter o d p ∈ t.rs.log ∧ ix.lists o d di ∧ DirItem.says di name ty loc ∧ loc.typ ≠ 132 ∧
    usable name ∧ 92 ∉ name ∧ q = goJoin p name ∧ i = loc.objectID

/-- The file system as it was at some point of the run. -/
def Talk.once (t : Talk) (f : HostFS) : Prop := f = t.rs.fs ∨ f ∈ t.rs.past

/-- The message is true: a file announced is a regular file of the tree, with this size (0 if there is no inode item), and it was
tried to create it; a link announced is a link, it was tried to create it, and an inline target is printed as it is; what is said to exist was there; what is said to be
special is; a subvolume announced is listed, and to be recovered to this place below the destination `dest`. -/
def Talk.isTrue (ix : Ix) (clobber : Bool) (dest : Bytes) (t : Talk) : Line → Prop
  | .file q n => ∃ o i, t.isEntry ix q 1 o i ∧ Ev.op .open q ∈ t.rs.log ∧
      ∃ size, (do inodeSize (← ix.findInodeItem o i)) = .ok size ∧ n = size.getD 0
  | .fileExists q => clobber = false ∧ (∃ o i, t.isEntry ix q 1 o i) ∧ ∃ f, t.once f ∧ f.stat true q ≠ none
  | .link q x => ∃ o i, t.isEntry ix q 7 o i ∧ Ev.op .symlink q ∈ t.rs.log ∧
      ∃ e, ix.findFileExtentItem o i = .ok (some e) ∧ (FileExtentItem.isInline e = .ok true → FileExtentItem.data e = .ok x)
  | .linkExists q => clobber = false ∧ (∃ o i, t.isEntry ix q 7 o i) ∧ ∃ f, t.once f ∧ f.stat false q ≠ none
  | .special q ty => ty ≠ 1 ∧ ty ≠ 2 ∧ ty ≠ 7 ∧ ∃ o i, t.isEntry ix q ty o i
  | .subvol o p => ix.listsSubvolume o ∧ p = goJoin dest (ascii "subvol_" ++ decimal o.toNat)
  | .root o => o = 5
  | .stripe .. => True

/-- The user was told what became of `q`, an entry of type `ty`. -/
def Talk.tellsOf (t : Talk) (q : Bytes) (ty : UInt8) : Prop :=
  Ev.warn q ∈ t.rs.log ∨
  (ty = 1 ∧ (Line.fileExists q ∈ t.said ∨ ∃ n, Line.file q n ∈ t.said)) ∨
  (ty = 7 ∧ (Line.linkExists q ∈ t.said ∨ ∃ x, Line.link q x ∈ t.said)) ∨
  Line.special q ty ∈ t.said

/-- Directory `d` of tree `o` was entered, wherever. -/
def Talk.entered (t : Talk) (o d : UInt64) : Prop := ∃ p, Ev.enter o d p ∈ t.rs.log

/-- All entries with usable names without backslash of a directory at `p` were dealt with: directories and trees were entered, and
of everything else the user was told. -/
def Talk.dirDone (ix : Ix) (t : Talk) (o d : UInt64) (p : Bytes) : Prop :=
  ∀ di name ty loc, ix.lists o d di → DirItem.says di name ty loc → usable name → 92 ∉ name →
    (loc.typ = 132 → t.entered loc.objectID 256) ∧
    (loc.typ ≠ 132 → ty = 2 → t.entered o loc.objectID) ∧
    (loc.typ ≠ 132 → ty ≠ 2 → t.tellsOf (goJoin p name) ty)

end Btrfscue
