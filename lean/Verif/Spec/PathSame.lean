import Verif.Spec.PathExact
/-!
# Specification: `ls PATH` and the mounted file system lead to the same
-/

namespace Btrfscue

/-- The directories can be iterated over, with whole entries of whatever generations and intact inode
items. What is stored under the hash of a name is something that iterating gets to (which is so if all
items of a directory are of one generation), no name occurs twice among what iterating gets to,
everything that has an entry has an inode item, and what is not called a directory has no entries. -/
structure Bucket.PathSameOK (b : Bucket) : Prop where
  dirs : b.DirsOK
  full : ∀ o dir d, o ≠ ~~~0 → b.dirItem o dir d → wholeEntry (Slice.data d)
  inodes : ∀ o, o ≠ ~~~0 → b.TreeInodesOK o
  hashed : ∀ o dir name e d vs, o ≠ ~~~0 → b.underHash o dir name e d → b.seenItems o 84 dir vs → ∃ off, (off, d) ∈ vs
  single : ∀ o dir vs name off d e off' d' e', o ≠ ~~~0 → b.seenItems o 84 dir vs → (off, d) ∈ vs →
    startsEntry (Slice.data d) name e → (off', d') ∈ vs → startsEntry (Slice.data d') name e' → off = off'
  present : ∀ o dir vs name off d e, o ≠ ~~~0 → b.seenItems o 84 dir vs → (off, d) ∈ vs → startsEntry (Slice.data d) name e →
    b.hasKey (target o e.location).1 ⟨(target o e.location).2, 1, 0⟩
  plain : ∀ o dir vs name off d e, o ≠ ~~~0 → b.seenItems o 84 dir vs → (off, d) ∈ vs → startsEntry (Slice.data d) name e →
    e.typ ≠ 2 → ∀ off', ¬ b.hasKey (target o e.location).1 ⟨(target o e.location).2, 84, off'⟩

end Btrfscue
