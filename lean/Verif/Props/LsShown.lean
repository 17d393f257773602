import Verif.Proof.LsShown
/-!
# C65, C88: what `ls --recursive` prints, exactly
-/

namespace Btrfscue

/-- C65 and C88, exactly: on an index whose directories can be iterated over, with whole entries of
whatever generations and intact inode items, recursive listing of a directory never ends if from it
one can go down for ever, by object numbers in the tree of the directory; and else prints its
listing: in order a line for each entry that iterating over the directory gets to, and then for
each of the directories among them its name and listing. -/
theorem C65_recursive_exact (b : Bucket) (hb : b.WF) (m : Bytes) (hm : b.stores metadataVersionKey m) (hok : b.DirsOK)
    (hfull : ∀ o dir d, o ≠ ~~~0 → b.dirItem o dir d → wholeEntry (Slice.data d)) (o : UInt64) (ho : o ≠ ~~~0) (hin : b.InodesOK o)
    (srt : Sorter) (hsrt : SortOK srt) (ft : Time → Bytes) (si : Bool) (dir : UInt64) :
    (b.endlessSeen o dir ∧ ∀ rf fuel, listDirectory rf srt ft ⟨b, ~~~0⟩ o si fuel dir true = .hang) ∨
    (¬ b.endlessSeen o dir ∧ ∃ N ts, b.ShownTree ft si o dir ts ∧ ∀ rf fuel, N ≤ rf → N ≤ fuel →
      listDirectory rf srt ft ⟨b, ~~~0⟩ o si fuel dir true = .ok (listingText ts)) := by
  by_cases h : b.endlessSeen o dir
  · obtain ⟨s, rfl, hs⟩ := h
    exact Or.inl ⟨⟨s, rfl, hs⟩, fun rf fuel => listDirectory_seen_hangs hb hm hok hfull ho hin hsrt ft si (S := fun d => ∃ n, d = s n)
      (fun d hd => by obtain ⟨n, rfl⟩ := hd; exact ⟨s (n + 1), ⟨n + 1, rfl⟩, hs n⟩) rf fuel _ ⟨0, rfl⟩⟩
  · exact Or.inr ⟨h, listDirectory_shown hb hm hok hfull ho hin hsrt ft si dir (acc_of_not_endlessSeen h)⟩

/-- C88, exactly, the command: `ls --recursive` of the root prints the listing of the top directory
or never ends. -/
theorem C88_recursive_exact (b : Bucket) (hb : b.WF) (m : Bytes) (hm : b.stores metadataVersionKey m) (hok : b.DirsOK)
    (hfull : ∀ o dir d, o ≠ ~~~0 → b.dirItem o dir d → wholeEntry (Slice.data d)) (hin : b.InodesOK 5)
    (srt : Sorter) (hsrt : SortOK srt) (ft : Time → Bytes) (si : Bool) (args : List Bytes)
    (ha : args = [] ∨ ∃ a, args = [a] ∧ goClean a = [47]) :
    (b.endlessSeen 5 256 ∧ ∀ rf fuel, doListFiles rf fuel srt ft ⟨b, ~~~0⟩ ⟨true, si⟩ args = .hang) ∨
    (¬ b.endlessSeen 5 256 ∧ ∃ N ts, b.ShownTree ft si 5 256 ts ∧ ∀ rf fuel, N ≤ rf → N ≤ fuel →
      doListFiles rf fuel srt ft ⟨b, ~~~0⟩ ⟨true, si⟩ args = .ok (listingText ts, [])) := by
  rcases C65_recursive_exact b hb m hm hok hfull 5 (by decide) hin srt hsrt ft si 256 with ⟨h1, h2⟩ | ⟨h1, N, ts, h2, h3⟩
  · refine Or.inl ⟨h1, fun rf fuel => ?_⟩
    have hd : ∀ a, goClean a = [47] → lsArg rf ft ⟨b, ~~~0⟩ ⟨true, si⟩ {} a = .ok { todo := [(5, 256)] } := by
      intro a ha
      simp [lsArg, ha, FSTreeObjectID, FirstFreeObjectID]
    rcases ha with rfl | ⟨a, rfl, ha⟩
    · simp only [doListFiles, List.isEmpty_nil, if_true, lsArgsLoop, hd [47] (by decide), Go.ok_bind, lsTodoLoop, h2, Go.hang_bind]
    · simp only [doListFiles, List.isEmpty_cons, Bool.false_eq_true, if_false, lsArgsLoop, hd a ha, Go.ok_bind, lsTodoLoop, h2, Go.hang_bind]
  · exact Or.inr ⟨h1, N, ts, h2, fun rf fuel hrf hfu => (C74_ls_root _ args ha rf fuel srt ft ⟨true, si⟩ _).mpr (h3 rf fuel hrf hfu)⟩

end Btrfscue
