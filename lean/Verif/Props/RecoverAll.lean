import Verif.Proof.Undamaged
import Verif.Proof.QuietRun
import Verif.Props.RecoverLink
import Verif.Props.RecoverEnd
/-!
# C83: recovering an undamaged file system recovers everything
-/

namespace Btrfscue

open Cmd

theorem Bucket.Undamaged.hasEntry {b : Bucket} (hb : b.WF) {m : Bytes} (hm : b.stores metadataVersionKey m) {gc : UInt64} {D dest : Bytes}
    (hu : b.Undamaged gc) (hr : b.Recoverable gc D dest) {t : UInt8} {o i : UInt64} {q : Bytes}
    (h : (Ix.mk b (~~~0)).HasEntry dest t o i q) :
    ∃ d p name e, b.BelongsAt dest o d p ∧ b.entryNow o d name e ∧ e.typ = t ∧ e.location.typ ≠ 132 ∧ e.location.objectID = i ∧
      q = goJoin p name := by
  obtain ⟨d, p, di, n, loc, h1, h2, h3, h4, h5, -, -, h8⟩ := h
  have hp := (hu.placed hb hm hr).mp h1
  obtain ⟨name, e, k1, k2⟩ := (hu.lists hb hm (hp.ordinary hr)).1 _ h2
  obtain ⟨rfl, rfl, rfl⟩ := says_unique h3 k1
  exact ⟨d, p, _, e, hp, k2, rfl, h4, h5, h8⟩

theorem decimal_nul (n : Nat) : 0 ∉ ascii "subvol_" ++ decimal n := by
  intro h
  rw [List.mem_append] at h
  rcases h with h | h
  · exact absurd h (by decide)
  · exact absurd (decimal_digit h).1 (by decide)

theorem Bucket.BelongsAt.nul {b : Bucket} {gc : UInt64} {D dest : Bytes} (hr : b.Recoverable gc D dest) {o d : UInt64} {p : Bytes}
    (h : b.BelongsAt dest o d p) : 0 ∉ p := by
  induction h with
  | main => exact hr.destName
  | subvolume h => exact goJoin_nul hr.destName (decimal_nul _)
  | dir hp he _ _ ih => exact goJoin_nul ih (hr.names _ _ _ _ _ hp he).2.2
  | tree hp he _ ih => exact goJoin_nul ih (hr.names _ _ _ _ _ hp he).2.2

theorem Bucket.BelongsAt.good {b : Bucket} {gc : UInt64} {D dest : Bytes} (hr : b.Recoverable gc D dest) (hd : dest.length < 4095)
    {o d : UInt64} {p : Bytes} (h : b.BelongsAt dest o d p) : GoodPath p := by
  refine ⟨h.nul hr, ?_⟩
  cases h with
  | main => omega
  | subvolume h => exact (hr.subvols _ h).1
  | dir hp he _ _ => exact hr.paths _ _ _ _ _ hp he
  | tree hp he _ => exact hr.paths _ _ _ _ _ hp he

/-- The run ends, without a warning. -/
theorem all_core {b : Bucket} (hb : b.WF) {m : Bytes} (hm : b.stores metadataVersionKey m) {gc : UInt64} (hu : b.Undamaged gc) :
    ∃ N, ∀ rf, N ≤ rf → ∀ fuel, N ≤ fuel → ∀ env D, Quiet env D → ∀ fs dest r, EmptyDest fs dest r → b.Recoverable gc D dest →
      ∃ s', doRecoverFiles env rf fuel ⟨b, ~~~0⟩ false dest (RecState.start fs) = .ok () s' ∧ s'.silent := by
  obtain ⟨N0, map, hM⟩ := mapOK hb hm hu.addr.range hu.addr.chunks hu.addr.disjoint
  obtain ⟨N1, hend⟩ := C60_terminates_stored_partial b hb m hm hu.recoverOK (~~~0)
  refine ⟨N0 + N1 + b.length + 2, fun rf hrf fuel hfuel env D hq fs dest r he hr => ?_⟩
  have hD := hu.distinct hb hm hr
  have hgood : ∀ t o i q, (Ix.mk b (~~~0)).HasEntry dest t o i q → GoodPath q := by
    intro t o i q h
    obtain ⟨d, p, name, e, h1, h2, h3, h4, h5, rfl⟩ := hu.hasEntry hb hm hr h
    exact ⟨goJoin_nul (h1.nul hr) (hr.names _ _ _ _ _ h1 h2).2.2, hr.paths _ _ _ _ _ h1 h2⟩
  have hrun := (quietRun (rf := rf) (env := env) hq.calls hD he.ok (fates b gc D env) (hu.noCrash hb hm hr rf)
    (fun o d p h => ((hu.placed hb hm hr).mp h).good hr he.short)
    (fun t o i q _ h => hgood t o i q h)
    (fun o i q s h hc => by
      have h0 : wp (recoverFile env rf ⟨b, ~~~0⟩ false o i q) (fun e _ => s.fs.openTrunc q ≠ none → e = none) (fun _ => False) s := ?_
      · exact wp_mono (wp_and (wp_file_fate hb hm hu.addr hM (by omega) (by omega) (by omega) hq.honest hc) h0) (fun e t h => h) (fun _ h => h.2)
      obtain ⟨d, p, name, e, h1, h2, h3, h4, rfl, rfl⟩ := hu.hasEntry hb hm hr h
      obtain ⟨⟨ho, size, hsz, hlt, hcase⟩, hdev⟩ := hr.files _ _ _ _ _ h1 h2 h3 h4
      have hc' : s.cache = none ∨ s.cache = some map := by
        rcases hc with hc | ⟨map', hc, h⟩
        · exact Or.inl hc
        · rw [hM.built rf (by omega)] at hc
          cases hc
          exact Or.inr h
      rcases hcase with ⟨g, hf, hp⟩ | ⟨g, start, data, hi⟩
      · exact wp_mono (file_uniform hb hm ho hu.addr hf hp hsz hlt hM D rf (by omega) (by omega) env hq.honest false _ s hc')
          (fun e t h => h.2 hq (hdev g hf)) fun _ h => h
      · exact wp_mono (inline_uniform hb hm ho hi hsz hlt (by omega) env false _ s) (fun e t h => h.2 hq.calls) fun _ h => h)
    (fun o i q s _ _ => wp_link_fate hb hm)
    (fun o i q s h hs => by
      obtain ⟨d, p, name, e, h1, h2, h3, h4, rfl, rfl⟩ := hu.hasEntry hb hm hr h
      by_cases hst : s.fs.stat false (goJoin p name) = none
      · obtain ⟨x, ⟨ho, g, y, f, rest, k1, k2, k3, k4, k5⟩, k6⟩ := hr.links _ _ _ _ _ h1 h2 h3 h4
        obtain ⟨f', hf'⟩ := (hs.resolve_left fun h => h hst) x k6
        obtain ⟨s', hs', -⟩ := C62_link_made b hb m hm o _ ho g y f x rest k1 k2 k3 k4 k5 env hq.calls rf false _ s f' hf'
        unfold wp
        rw [hs']
      · unfold recoverSymlink
        rw [wp_bind]
        unfold wp
        rw [sysLstat_run hq.calls]
        simp only
        cases hx : s.fs.stat false (goJoin p name) with
        | none => exact absurd hx hst
        | some v => exact rfl)).all fuel
      (show WholeInv ⟨b, ~~~0⟩ fs dest r rf (fileFate b gc D env) (linkFate b) (RecState.start fs) ∧ (RecState.start fs).silent from
        ⟨WholeInv.start he hD, fun p hp => by cases hp⟩)
  have hnh := hend rf (by omega) fuel (by omega) env false dest fs
  unfold wpE at hrun
  cases hc : doRecoverFiles env rf fuel ⟨b, ~~~0⟩ false dest (RecState.start fs) with
  | ok u s' =>
    rw [hc] at hrun
    exact ⟨s', rfl, hrun.1.inv.2⟩
  | exit s' => rw [hc] at hrun; cases hrun
  | crash s' => rw [hc] at hrun; cases hrun
  | hang s' => exact absurd hc (hnh s')

/-- C83: recovering an undamaged file system to an empty directory, when no system call
fails, ends, prints no warning, and recovers everything: every directory, in whatever tree
and however deep, is at one of the places it belongs, and in it every regular file with its
contents and every symbolic link with its target. Missing: indexes that violate `Undamaged`
— directories or root items of more than one generation, names with equal hashes
(`C83_collision_lost`), no subvolume 256, the case in which an iteration does not end
(`C60_endless_listing`) — and names with a backslash (`C61_backslash_skipped`). Entries of other types (devices, sockets) are not recovered. -/
theorem C83_recovers_all_partial (b : Bucket) (hb : b.WF) (m : Bytes) (hm : b.stores metadataVersionKey m) (gc : UInt64)
    (hu : b.Undamaged gc) :
    ∃ N, ∀ rf, N ≤ rf → ∀ fuel, N ≤ fuel → ∀ env D, Quiet env D → ∀ fs dest r, EmptyDest fs dest r → b.Recoverable gc D dest →
      ∃ s', doRecoverFiles env rf fuel ⟨b, ~~~0⟩ false dest (RecState.start fs) = .ok () s' ∧ s'.silent ∧
        ∀ o d p0, b.BelongsAt dest o d p0 → ∃ p, b.BelongsAt dest o d p ∧ s'.fs.stat true p = some true ∧
          ∀ name e, b.entryNow o d name e → e.location.typ ≠ 132 →
            (e.typ = 1 → ∃ x, s'.fs.readFile (goJoin p name) = some x ∧ b.contentIs gc D o e.location.objectID x) ∧
            (e.typ = 7 → ∃ x, s'.fs.readLink (goJoin p name) = some x ∧ b.targetIs o e.location.objectID x) := by
  obtain ⟨N, hN⟩ := all_core hb hm hu
  obtain ⟨N', hN'⟩ := C81_everything_partial b hb m hm gc hu.addr
  refine ⟨N + N', fun rf hrf fuel hfuel env D hq fs dest r he hr => ?_⟩
  obtain ⟨s', hs', hsil⟩ := hN rf (by omega) fuel (by omega) env D hq fs dest r he hr
  refine ⟨s', hs', hsil, fun o d p0 hp0 => ?_⟩
  obtain ⟨p, h1, h2, h3⟩ := hN' rf (by omega) env D hq.honest (fun n => hq.calls .stat n) fuel fs dest r he (hu.distinct hb hm hr) s' hs' hsil o d p0
    ((hu.placed hb hm hr).mpr hp0)
  have hp := (hu.placed hb hm hr).mp h1
  refine ⟨p, hp, h2, fun name e hen hty => ?_⟩
  obtain ⟨di, k1, k2⟩ := (hu.lists hb hm (hp.ordinary hr)).2 _ _ hen
  obtain ⟨k3, k4, -⟩ := hr.names _ _ _ _ _ hp hen
  obtain ⟨g1, g2⟩ := h3 di name e.typ e.location k1 k2 hty ⟨k3.2.1, k3.2.2.1, k3.2.2.2⟩ k4
  refine ⟨fun ht => g1 ht (hr.files _ _ _ _ _ hp hen ht hty).1 (Or.inr fun n => hq.calls .truncate n), fun ht => ?_⟩
  obtain ⟨x, hx, -⟩ := hr.links _ _ _ _ _ hp hen ht hty
  exact ⟨x, g2 ht x hx, hx⟩

/-- C83: and nothing else: whatever is below the destination afterwards is at the place of
something that is stored. -/
theorem C83_nothing_else (b : Bucket) (hb : b.WF) (m : Bytes) (hm : b.stores metadataVersionKey m) (gc : UInt64)
    (hu : b.Undamaged gc) :
    ∃ N, ∀ rf, N ≤ rf → ∀ fuel env D, Honest env D → (∀ n, env.fails .stat n = false) → ∀ fs dest r,
      EmptyDest fs dest r → b.Recoverable gc D dest →
      ∀ f, (doRecoverFiles env rf fuel ⟨b, ~~~0⟩ false dest (RecState.start fs)).state.reached f →
      ∀ A i, f.down r A = some i →
        (f.isDirAt i = true ∧ ∃ o d, b.BelongsAt dest o d (pathOf dest A)) ∨
        ∃ o d p name e x, b.BelongsAt dest o d p ∧ b.entryNow o d name e ∧ pathOf dest A = goJoin p name ∧
          ((e.typ = 1 ∧ f.inodes[i]? = some (.file x)) ∨ (e.typ = 7 ∧ f.inodes[i]? = some (.link x))) := by
  obtain ⟨N, hN⟩ := C82_only_listed b hb m hm gc hu.addr
  refine ⟨N, fun rf hrf fuel env D hh hst fs dest r he hr f hf A i hi => ?_⟩
  rcases hN rf hrf env D hh hst fuel fs dest r he (hu.distinct hb hm hr) f hf A i hi with ⟨h1, o, d, h2⟩ | ⟨x, o, n, h1, h2⟩ | ⟨x, o, n, h1, h2⟩
  · exact Or.inl ⟨h1, o, d, (hu.placed hb hm hr).mp h2⟩
  · obtain ⟨d, p, name, e, k1, k2, k3, -, -, k4⟩ := hu.hasEntry hb hm hr h2
    exact Or.inr ⟨o, d, p, name, e, x, k1, k2, k4, Or.inl ⟨k3, h1⟩⟩
  · obtain ⟨d, p, name, e, k1, k2, k3, -, -, k4⟩ := hu.hasEntry hb hm hr h2
    exact Or.inr ⟨o, d, p, name, e, x, k1, k2, k4, Or.inr ⟨k3, h1⟩⟩

end Btrfscue
