import Verif.Model.RecoverSay
import Verif.Proof.RecInv
/-!
# Printing does not influence what recover does

Each function of `Model/RecoverSay.lean` does what the one of `Model/Recover.lean` does; what it
prints without `--verbose` are the stripe messages of what it prints with it.
-/

namespace Btrfscue

/-- Is it a message about a stripe, which is printed even without `--verbose`? -/
def Line.isStripe : Line → Bool
  | .stripe .. => true
  | _ => false

/-- What remains of the messages `L` with and without `--verbose`. -/
def heard (verbose : Bool) (L : List Line) : List Line := if verbose then L else L.filter Line.isStripe

theorem heard_append (v : Bool) (L L' : List Line) : heard v (L ++ L') = heard v L ++ heard v L' := by
  cases v <;> simp [heard]

theorem heard_nil (v : Bool) : heard v [] = [] := by cases v <;> rfl

/-- An outcome, with what was printed. -/
def Out.speak {α : Type} (said : List Line) : Out RecState α → Out Talk α
  | .ok a s => .ok a ⟨s, said⟩
  | .exit s => .exit ⟨s, said⟩
  | .crash s => .crash ⟨s, said⟩
  | .hang s => .hang ⟨s, said⟩

/-! ## Parts of the command that only work on the host -/

/-- `I` does not depend on the host file system, nor on how many system calls there were, nor on which. -/
structure OnHost (I : RecState → Prop) : Prop where
  calls : ∀ s n, I s → I { s with calls := n }
  fs : ∀ s f, I s → I { s with fs := f, past := s.fs :: s.past }
  op : ∀ s k p, I s → I { s with log := .op k p :: s.log }

section

variable {I : RecState → Prop} (h : OnHost I) (env : Env)

include h

theorem OnHost.applyFS (r : Option HostFS) : Cmd.Keeps I (applyFS r) := by
  unfold Btrfscue.applyFS; split
  · exact .pure
  · exact .bind (fun s hs => h.fs s _ hs) fun _ => .pure

theorem OnHost.write (fd : Nat) (b : Bytes) (off : Int) : Cmd.Keeps I (sysWrite env fd b off) :=
  Cmd.Keeps.ite (fun _ => .pure) fun _ => .ite (fun _ => .pure) fun _ => .bind .get fun _ => .bind (Keeps.tick h.calls) fun _ =>
    .ite (fun _ => .bind .get fun _ => .bind (h.applyFS _) fun _ => .pure) fun _ => .ite (fun _ => .pure) fun _ => .bind .get fun _ => h.applyFS _

theorem OnHost.truncate (fd : Nat) (n : Int) : Cmd.Keeps I (sysTruncate env fd n) :=
  .bind (Keeps.tick h.calls) fun _ => .ite (fun _ => .pure) fun _ => .ite (fun _ => .pure) fun _ => .bind .get fun _ => h.applyFS _

theorem OnHost.note (k : Sys) (p : Bytes) : Cmd.Keeps I (note (.op k p)) := fun s hs => h.op s k p hs

theorem OnHost.mkdir (p : Bytes) : Cmd.Keeps I (sysMkdir env p) :=
  .bind (h.note _ _) fun _ => .bind (Keeps.tick h.calls) fun _ => .ite (fun _ => .pure) fun _ => .bind .get fun _ => h.applyFS _

theorem OnHost.symlink (t p : Bytes) : Cmd.Keeps I (sysSymlink env t p) :=
  .bind (h.note _ _) fun _ => .bind (Keeps.tick h.calls) fun _ => .ite (fun _ => .pure) fun _ => .bind .get fun _ => h.applyFS _

theorem OnHost.remove (p : Bytes) : Cmd.Keeps I (sysRemove env p) :=
  .bind (h.note _ _) fun _ => .bind (Keeps.tick h.calls) fun _ => .ite (fun _ => .pure) fun _ => .bind .get fun _ => h.applyFS _

theorem OnHost.open (p : Bytes) : Cmd.Keeps I (sysOpen env p) :=
  .bind (h.note _ _) fun _ => .bind (Keeps.tick h.calls) fun _ => .ite (fun _ => .pure) fun _ => .bind .get fun _ => by
    unfold applyOpen; split
    · exact .pure
    · exact .bind (fun s hs => h.fs s _ hs) fun _ => .pure

theorem OnHost.stat (p : Bytes) : Cmd.Keeps I (sysStat env p) := Keeps.sysStat h.calls

theorem OnHost.lstat (p : Bytes) : Cmd.Keeps I (sysLstat env p) := Keeps.sysLstat h.calls

theorem OnHost.devRead (o : Int) (n : Nat) : Cmd.Keeps I (devRead env o n) := Keeps.devRead h.calls

theorem OnHost.mkdirAll (p : Bytes) : Cmd.Keeps I (mkdirAll env p) := Keeps.mkdirAll h.calls fun _ => h.mkdir env _

theorem OnHost.copyLoop (fd : Nat) (fo so n : UInt64) (fuel : Nat) : ∀ k, Cmd.Keeps I (copyLoop env fd fo so n fuel k) := by
  induction fuel with
  | zero => exact fun _ => .hang
  | succ fuel ih =>
    intro k
    unfold Btrfscue.copyLoop
    refine .ite (fun _ => .bind (h.devRead _ _ _) fun r => .bind ?_ fun _ => .ite (fun _ => ?_) fun _ => .pure) fun _ => .pure
    · unfold writeRead
      exact .ite (fun _ => h.write _ _ _ _) fun _ => .pure
    · simp only
      split
      · exact ih _
      · exact .ite (fun _ => .pure) fun _ => .pure
      · exact .pure

theorem OnHost.inline (fd : Nat) (size : Option UInt64) (fo : UInt64) (d : Bytes) : Cmd.Keeps I (recoverInline env fd size fo d) :=
  Cmd.Keeps.ite (fun _ => .bind .lift fun _ => .bind (h.write _ _ _ _) fun _ => .pure) fun _ => .pure

theorem OnHost.hole (fd : Nat) (fo n : UInt64) : Cmd.Keeps I (recoverHole env fd fo n) :=
  .bind .lift fun _ => .bind (h.write _ _ _ _) fun _ => .pure

theorem OnHost.finishEmpty (fd : Nat) (size : Option UInt64) : Cmd.Keeps I (finishEmpty env fd size) := by
  unfold Btrfscue.finishEmpty; split
  · exact .pure
  · exact .bind (h.truncate _ _ _) fun _ => .pure

theorem OnHost.finishFile (fd : Nat) (size : Option UInt64) : Cmd.Keeps I (finishFile env fd size) := by
  unfold Btrfscue.finishFile; split
  · exact .pure
  · exact .bind (h.truncate _ _ _) fun _ => .ite (fun _ => .pure) fun _ => .pure

end

/-- The part of the command leaves the cached stripe map as it is. -/
def Still {α : Type} (p : Rec α) : Prop := ∀ c, Cmd.Keeps (fun s => s.cache = c) p

theorem Still.state {α : Type} {p : Rec α} (h : Still p) (r : RecState) : (p r).state.cache = r.cache := by
  have := h r.cache r rfl
  unfold Cmd.wp at this
  cases hp : p r <;> rw [hp] at this <;> exact this

theorem onHost_cache (c : Option (List StripeMapEntry)) : OnHost fun s => s.cache = c := ⟨fun _ _ h => h, fun _ _ h => h, fun _ _ _ h => h⟩

theorem still_truncate (env : Env) (fd : Nat) (n : Int) : Still (sysTruncate env fd n) := fun c => (onHost_cache c).truncate _ _ _
theorem still_symlink (env : Env) (t p : Bytes) : Still (sysSymlink env t p) := fun c => (onHost_cache c).symlink _ _ _
theorem still_remove (env : Env) (p : Bytes) : Still (sysRemove env p) := fun c => (onHost_cache c).remove _ _
theorem still_open (env : Env) (p : Bytes) : Still (sysOpen env p) := fun c => (onHost_cache c).open _ _
theorem still_stat (env : Env) (p : Bytes) : Still (sysStat env p) := fun c => (onHost_cache c).stat _ _
theorem still_lstat (env : Env) (p : Bytes) : Still (sysLstat env p) := fun c => (onHost_cache c).lstat _ _
theorem still_devRead (env : Env) (o : Int) (n : Nat) : Still (devRead env o n) := fun c => (onHost_cache c).devRead _ _ _
theorem still_mkdirAll (env : Env) (p : Bytes) : Still (mkdirAll env p) := fun c => (onHost_cache c).mkdirAll _ _
theorem still_enterDir (env : Env) (o d : UInt64) (p : Bytes) : Still (enterDir env o d p) := fun c =>
  .bind (fun _ h => h) fun _ => .bind (fun _ h => h) fun _ => still_mkdirAll env p c
theorem still_report (p : Bytes) (e : Option RecErr) : Still (report p e) := fun c => by
  unfold report; split
  · exact .pure
  · exact fun _ h => h
theorem still_copyLoop (env : Env) (fd : Nat) (fo so n : UInt64) (fuel : Nat) (k : UInt64) : Still (copyLoop env fd fo so n fuel k) :=
  fun c => (onHost_cache c).copyLoop _ _ _ _ _ _ _
theorem still_inline (env : Env) (fd : Nat) (size : Option UInt64) (fo : UInt64) (d : Bytes) : Still (recoverInline env fd size fo d) :=
  fun c => (onHost_cache c).inline _ _ _ _ _
theorem still_hole (env : Env) (fd : Nat) (fo n : UInt64) : Still (recoverHole env fd fo n) := fun c => (onHost_cache c).hole _ _ _ _
theorem still_finishEmpty (env : Env) (fd : Nat) (size : Option UInt64) : Still (finishEmpty env fd size) :=
  fun c => (onHost_cache c).finishEmpty _ _ _
theorem still_finishFile (env : Env) (fd : Nat) (size : Option UInt64) : Still (finishFile env fd size) :=
  fun c => (onHost_cache c).finishFile _ _ _

/-! ## What the parts that print do -/

/-- The stripe messages among `L`, which are printed while `p` goes from `r` to `out`: none, or those
for filling the stripe map, which had not been filled then and is filled if the program goes on. -/
def StripesOf {α : Type} (rf : Nat) (ix : Ix) (r : RecState) (out : Out RecState α) (L : List Line) : Prop :=
  (L.filter Line.isStripe = [] ∧ out.state.cache = r.cache) ∨
  (L.filter Line.isStripe = physicalLines rf ix none ∧ r.cache = none ∧
    ((∃ a s, out = .ok a s) ∨ (∃ s, out = .exit s) → ∃ es, ix.buildStripeMap rf = .ok es ∧ out.state.cache = some es))

/-- `x` does what `p` does and prints something. -/
def Tells {α : Type} (rf : Nat) (ix : Ix) (x : Bool → Say α) (p : Rec α) : Prop :=
  ∀ r, ∃ L, (∀ v said, x v ⟨r, said⟩ = (p r).speak (said ++ heard v L)) ∧ StripesOf rf ix r (p r) L

namespace Tells

variable {α β : Type} {rf : Nat} {ix : Ix}

theorem bind {x : Bool → Say α} {p : Rec α} {f : Bool → α → Say β} {q : α → Rec β} (h : Tells rf ix x p)
    (hf : ∀ a, Tells rf ix (fun v => f v a) (q a)) :
    Tells rf ix (fun v => x v >>= f v) (p >>= q) := by
  intro r
  obtain ⟨L, hL, hS⟩ := h r
  cases hp : p r with
  | ok a r' =>
    obtain ⟨L', hL', hS'⟩ := hf a r'
    refine ⟨L ++ L', fun v said => ?_, ?_⟩
    · have h1 := hL v said
      rw [hp] at h1
      rw [Cmd.bind_ok hp, heard_append, ← List.append_assoc, ← hL' v]
      exact Cmd.bind_ok h1
    · rw [Cmd.bind_ok hp]
      rw [hp] at hS
      unfold StripesOf at hS hS' ⊢
      rw [List.filter_append]
      rcases hS with ⟨k1, k2⟩ | ⟨k1, k2, k3⟩
      · simp only [Out.state] at k2
        rw [k1, List.nil_append, ← k2]
        exact hS'
      · obtain ⟨es, k4, k5⟩ := k3 (.inl ⟨_, _, rfl⟩)
        simp only [Out.state] at k5
        rcases hS' with ⟨j1, j2⟩ | ⟨j1, j2, j3⟩
        · exact .inr ⟨by rw [k1, j1, List.append_nil], k2, fun _ => ⟨es, k4, by rw [j2]; exact k5⟩⟩
        · rw [k5] at j2; cases j2
  | exit r' =>
    refine ⟨L, fun v said => ?_, ?_⟩
    · have h1 := hL v said
      rw [hp] at h1
      rw [Cmd.bind_exit hp]
      exact Cmd.bind_exit h1
    · rw [Cmd.bind_exit hp]
      rw [hp] at hS
      rcases hS with k | ⟨k1, k2, k3⟩
      · exact .inl k
      · exact .inr ⟨k1, k2, fun _ => k3 (.inr ⟨_, rfl⟩)⟩
  | crash r' =>
    refine ⟨L, fun v said => ?_, ?_⟩
    · have h1 := hL v said
      rw [hp] at h1
      rw [Cmd.bind_crash hp]
      exact Cmd.bind_crash h1
    · rw [Cmd.bind_crash hp]
      rw [hp] at hS
      rcases hS with k | ⟨k1, k2, k3⟩
      · exact .inl k
      · exact .inr ⟨k1, k2, by rintro (⟨_, _, h⟩ | ⟨_, h⟩) <;> cases h⟩
  | hang r' =>
    refine ⟨L, fun v said => ?_, ?_⟩
    · have h1 := hL v said
      rw [hp] at h1
      rw [Cmd.bind_hang hp]
      exact Cmd.bind_hang h1
    · rw [Cmd.bind_hang hp]
      rw [hp] at hS
      rcases hS with k | ⟨k1, k2, k3⟩
      · exact .inl k
      · exact .inr ⟨k1, k2, by rintro (⟨_, _, h⟩ | ⟨_, h⟩) <;> cases h⟩

theorem quietly {p : Rec α} (hp : Still p) : Tells rf ix (fun _ => quietly p) p := fun r => ⟨[], fun v said => by
  rw [heard_nil, List.append_nil]
  unfold Btrfscue.quietly
  cases h : p r <;> simp only [h] <;> rfl, .inl ⟨rfl, hp.state r⟩⟩

theorem pure (a : α) : Tells rf ix (fun _ => pure a) (pure a) := fun r => ⟨[], fun v said => by rw [heard_nil, List.append_nil]; rfl, .inl ⟨rfl, rfl⟩⟩

theorem exit : Tells (α := α) rf ix (fun _ => Cmd.exit) Cmd.exit := fun r =>
  ⟨[], fun v said => by rw [heard_nil, List.append_nil]; rfl, .inl ⟨rfl, rfl⟩⟩

theorem hang : Tells (α := α) rf ix (fun _ s => .hang s) (fun s => .hang s) := fun r =>
  ⟨[], fun v said => by rw [heard_nil, List.append_nil]; rfl, .inl ⟨rfl, rfl⟩⟩

theorem lift (x : Go α) : Tells rf ix (fun _ => Cmd.lift x) (Cmd.lift x) := fun r => ⟨[], fun v said => by
  rw [heard_nil, List.append_nil]; cases x <;> rfl, .inl ⟨rfl, by cases x <;> rfl⟩⟩

/-- Saying something, when the model without messages does nothing. -/
theorem say {l : Line} (hl : l.isStripe = false) : Tells rf ix (fun v => sayVerbose v l) (Pure.pure ()) := fun r => ⟨[l], fun v said => by
  cases v with
  | true => rfl
  | false =>
    unfold sayVerbose heard
    simp only [Bool.false_eq_true, if_false, List.filter_cons, hl, List.filter_nil, List.append_nil]
    rfl, .inl ⟨by simp [List.filter_cons, hl], rfl⟩⟩

/-- Saying something, and then going on. -/
theorem say_then {l : Line} (hl : l.isStripe = false) {f : Bool → Say α} {p : Rec α} (h : Tells rf ix f p) :
    Tells rf ix (fun v => do sayVerbose v l; f v) p := by
  have := bind (say hl) (f := fun v _ => f v) (q := fun _ => p) (fun _ => h)
  exact this

theorem ite {c : Prop} [Decidable c] {x y : Bool → Say α} {p q : Rec α} (hx : Tells rf ix x p) (hy : Tells rf ix y q) :
    Tells rf ix (fun v => if c then x v else y v) (if c then p else q) := by
  by_cases h : c
  · simp only [if_pos h]; exact hx
  · simp only [if_neg h]; exact hy

theorem get {f : Bool → RecState → Say α} {q : RecState → Rec α} (h : ∀ s, Tells rf ix (fun v => f v s) (q s)) :
    Tells rf ix (fun v => do f v (← Cmd.get).rs) (do q (← Cmd.get)) := by
  intro r
  obtain ⟨L, hL⟩ := h r r
  exact ⟨L, fun v said => hL.1 v said, hL.2⟩

end Tells

theorem stripeLinesBody_stripes {s : List Line} {r : Range} {c : Chunk} {res : List Line × Bool} (h : stripeLinesBody s r c = .ok res)
    (hs : s.filter Line.isStripe = s) : res.1.filter Line.isStripe = res.1 := by
  unfold stripeLinesBody at h
  obtain ⟨n, h1, h⟩ := Go.bind_eq_ok.mp h
  by_cases hn : n = 0
  · rw [if_pos hn] at h
    simp only [Go.pure_eq, Go.ok.injEq] at h
    subst h
    exact hs
  · rw [if_neg hn] at h
    obtain ⟨st, h2, h⟩ := Go.bind_eq_ok.mp h
    obtain ⟨k, h3, h⟩ := Go.bind_eq_ok.mp h
    obtain ⟨d, h4, h⟩ := Go.bind_eq_ok.mp h
    obtain ⟨o, h5, h⟩ := Go.bind_eq_ok.mp h
    simp only [Go.pure_eq, Go.ok.injEq] at h
    subst h
    simp only [List.filter_append, hs, List.filter_cons, List.filter_nil, Line.isStripe, if_true]

theorem stripeLines_loop (fuel : Nat) : ∀ (s : List Line) (rd : Range × Slice) {res : List Line × Bool},
    rangeLoop stripeLinesBody fuel s rd = .ok res → s.filter Line.isStripe = s → res.1.filter Line.isStripe = res.1 := by
  induction fuel with
  | zero => intro s rd res h; cases h
  | succ fuel ih =>
    intro s rd res h hs
    unfold rangeLoop at h
    cases hn : rd.1.hasNext with
    | false =>
      simp only [hn, Bool.false_eq_true, if_false, Go.pure_eq, Go.ok.injEq] at h
      subst h
      exact hs
    | true =>
      simp only [hn, if_true] at h
      obtain ⟨r1, h1, h⟩ := Go.bind_eq_ok.mp h
      have k1 := stripeLinesBody_stripes h1 hs
      obtain ⟨s', b'⟩ := r1
      cases b' with
      | true =>
        simp only [if_true, Go.pure_eq, Go.ok.injEq] at h
        subst h
        exact k1
      | false =>
        simp only [Bool.false_eq_true, if_false] at h
        obtain ⟨rd', h2, h⟩ := Go.bind_eq_ok.mp h
        exact ih _ _ h k1

theorem physicalLines_stripes (rf : Nat) (ix : Ix) (cache : Option (List StripeMapEntry)) :
    (physicalLines rf ix cache).filter Line.isStripe = physicalLines rf ix cache := by
  unfold physicalLines
  cases cache with
  | some _ => rfl
  | none =>
    simp only
    cases h : ix.stripeLines rf with
    | ok t =>
      unfold Ix.stripeLines at h
      obtain ⟨rd, h1, h⟩ := Go.bind_eq_ok.mp h
      obtain ⟨res, h2, h⟩ := Go.bind_eq_ok.mp h
      simp only [Go.pure_eq, Go.ok.injEq] at h
      subst h
      exact stripeLines_loop rf [] rd h2 rfl
    | panic => rfl
    | hang => rfl

theorem heard_physical (v : Bool) (rf : Nat) (ix : Ix) (cache : Option (List StripeMapEntry)) :
    heard v (physicalLines rf ix cache) = physicalLines rf ix cache := by
  cases v
  · exact physicalLines_stripes rf ix cache
  · rfl

theorem physical_fills {rf : Nat} {ix : Ix} {cache : Option (List StripeMapEntry)} {l : UInt64} {r : Option (List StripeMapEntry) × UInt64 × UInt64}
    (h : ix.physical rf cache l = .ok r) : (cache = none → ∃ es, ix.buildStripeMap rf = .ok es ∧ r.1 = some es) ∧ (cache ≠ none → r.1 = cache) := by
  cases cache with
  | none =>
    obtain ⟨m, h1, h⟩ := (Go.bind_eq_ok (x := ix.buildStripeMap rf)).mp h
    obtain ⟨l', h2, h⟩ := Go.bind_eq_ok.mp h
    simp only [Go.pure_eq, Go.ok.injEq] at h
    subst h
    exact ⟨fun _ => ⟨m, h1, rfl⟩, fun h => absurd rfl h⟩
  | some es =>
    obtain ⟨m, h1, h⟩ := (Go.bind_eq_ok (x := Go.ok es)).mp h
    obtain ⟨l', h2, h⟩ := Go.bind_eq_ok.mp h
    simp only [Go.pure_eq, Go.ok.injEq] at h h1
    subst h h1
    exact ⟨fun h => by simp at h, fun _ => rfl⟩

theorem tells_physical (rf : Nat) (ix : Ix) (logical : UInt64) : Tells rf ix (fun _ => sayPhysical rf ix logical) (recPhysical rf ix logical) := by
  intro r
  refine ⟨physicalLines rf ix r.cache, fun v said => ?_, ?_⟩
  · rw [heard_physical]
    unfold sayPhysical recPhysical
    cases h : ix.physical rf r.cache logical <;> simp only [h] <;> rfl
  · unfold StripesOf
    rw [physicalLines_stripes]
    cases hc : r.cache with
    | some es =>
      refine .inl ⟨rfl, ?_⟩
      unfold recPhysical
      cases h : ix.physical rf r.cache logical with
      | ok x => simp only [Out.state]; rw [(physical_fills h).2 (by rw [hc]; simp), hc]
      | panic => exact hc
      | hang => exact hc
    | none =>
      refine .inr ⟨rfl, rfl, ?_⟩
      unfold recPhysical
      cases h : ix.physical rf r.cache logical with
      | ok x => exact fun _ => (physical_fills h).1 hc
      | panic => rintro (⟨_, _, h⟩ | ⟨_, h⟩) <;> cases h
      | hang => rintro (⟨_, _, h⟩ | ⟨_, h⟩) <;> cases h

section

variable (env : Env) (rf : Nat) (ix : Ix)

theorem tells_data (fd : Nat) (fo n : UInt64) (e : FileExtentItem) : Tells rf ix (fun _ => sayData env rf ix fd fo n e) (recoverData env rf ix fd fo n e) :=
  .bind (.lift _) fun _ => .bind (tells_physical _ _ _) fun _ => .bind (.lift _) fun _ => .quietly (still_copyLoop _ _ _ _ _ _ _)

theorem tells_extent (fd : Nat) (size : Option UInt64) (r : Range) (e : FileExtentItem) :
    Tells rf ix (fun _ => sayExtent env rf ix fd size r e) (recoverExtent env rf ix fd size r e) :=
  .bind (.lift _) fun _ => .bind (.lift _) fun _ => .ite (.bind (.lift _) fun _ => .quietly (still_inline _ _ _ _ _))
    (.bind (.lift _) fun _ => .bind (.lift _) fun _ => .ite (.quietly (still_hole _ _ _ _)) (tells_data env rf ix _ _ _ _))

theorem tells_loop {body : Bool → Range → Slice → Say (Option RecErr)} {body' : Range → Slice → Rec (Option RecErr)}
    (h : ∀ r s, Tells rf ix (fun v => body v r s) (body' r s)) (fuel : Nat) :
    ∀ rd, Tells rf ix (fun v => rangeLoopSay (body v) fuel rd) (rangeLoopRec body' fuel rd) := by
  induction fuel with
  | zero => exact fun rd => .hang
  | succ fuel ih =>
    intro rd
    unfold rangeLoopSay rangeLoopRec
    refine .ite (.bind (h _ _) fun e => ?_) (.pure _)
    cases e with
    | some e => exact .pure _
    | none => exact .bind (.lift _) fun rd' => ih rd'

theorem tells_contents (owner inode : UInt64) (fd : Nat) (size : Option UInt64) :
    Tells rf ix (fun _ => sayContents env rf ix owner inode fd size) (recoverContents env rf ix owner inode fd size) := by
  refine .bind (.lift _) fun rd => .ite (.quietly (still_finishEmpty _ _ _)) (.bind (tells_loop rf ix (body := fun _ => _) (fun r s => tells_extent env rf ix fd size r s) rf rd) fun e => ?_)
  cases e with
  | some e => exact .pure _
  | none => exact .quietly (still_finishFile _ _ _)

theorem tells_file (clobber : Bool) (owner inode : UInt64) (target : Bytes) :
    Tells rf ix (fun v => sayFile v env rf ix clobber owner inode target) (recoverFile env rf ix clobber owner inode target) := by
  refine .bind (.quietly (still_stat _ _)) fun st => .ite (.say_then rfl (.pure _)) (.bind (.lift _) fun size => .bind (.quietly (still_open _ _)) fun fd => ?_)
  cases fd with
  | none => exact .pure _
  | some fd => exact .say_then rfl (tells_contents env rf ix _ _ _ _)

theorem tells_readTarget (e : FileExtentItem) : Tells rf ix (fun _ => sayReadTarget env rf ix e) (readTarget env rf ix e) :=
  .bind (.lift _) fun _ => .bind (tells_physical _ _ _) fun _ => .bind (.lift _) fun _ => .bind (.lift _) fun _ => .bind (.quietly (still_devRead _ _ _)) fun _ =>
    .ite (.pure _) (.pure _)

theorem tells_target (e : FileExtentItem) : Tells rf ix (fun _ => sayTarget env rf ix e) (symlinkTarget env rf ix e) :=
  .bind (.lift _) fun _ => .ite (.bind (.lift _) fun _ => .pure _) (.bind (.lift _) fun _ => .ite (tells_readTarget env rf ix e) (.pure _))

theorem tells_makeLink (target : Bytes) (t : Except RecErr Bytes) : Tells rf ix (fun v => sayMakeLink v env target t) (makeLink env target t) := by
  cases t with
  | error e => exact .pure _
  | ok t => exact .say_then rfl (.bind (.quietly (still_symlink _ _ _)) fun _ => .ite (.pure _) (.pure _))

theorem tells_link (owner inode : UInt64) (target : Bytes) :
    Tells rf ix (fun v => sayLink v env rf ix owner inode target) (recoverLink env rf ix owner inode target) := by
  refine .bind (.lift _) fun e => ?_
  cases e with
  | none => exact .pure _
  | some e => exact .bind (tells_target env rf ix e) fun t => tells_makeLink env rf ix target t

theorem tells_symlink (clobber : Bool) (owner inode : UInt64) (target : Bytes) :
    Tells rf ix (fun v => saySymlink v env rf ix clobber owner inode target) (recoverSymlink env rf ix clobber owner inode target) :=
  .bind (.quietly (still_lstat _ _)) fun _ => .ite (.ite (.say_then rfl (.pure _)) (.bind (.quietly (still_remove _ _)) fun _ => tells_link env rf ix _ _ _))
    (tells_link env rf ix _ _ _)

theorem tells_named {rec : Bool → UInt64 → UInt64 → Bytes → Say (Option RecErr)} {rec' : UInt64 → UInt64 → Bytes → Rec (Option RecErr)}
    (h : ∀ o d p, Tells rf ix (fun v => rec v o d p) (rec' o d p)) (clobber : Bool) (owner : UInt64) (target : Bytes) (di : DirItem) :
    Tells rf ix (fun v => sayNamed (rec v) v env rf ix clobber owner target di) (recoverNamed rec' env rf ix clobber owner target di) :=
  .bind (.lift _) fun _ => .bind (.lift _) fun _ => .bind (.lift _) fun _ => .bind (.lift _) fun _ =>
    .ite (.bind (h _ _ _) fun _ => .quietly (still_report _ _)) (.ite (.bind (tells_file env rf ix _ _ _ _) fun _ => .quietly (still_report _ _))
      (.ite (.bind (tells_symlink env rf ix _ _ _ _) fun _ => .quietly (still_report _ _)) (.say rfl)))

theorem tells_entry {rec : Bool → UInt64 → UInt64 → Bytes → Say (Option RecErr)} {rec' : UInt64 → UInt64 → Bytes → Rec (Option RecErr)}
    (h : ∀ o d p, Tells rf ix (fun v => rec v o d p) (rec' o d p)) (clobber : Bool) (owner : UInt64) (dest : Bytes) (di : DirItem) :
    Tells rf ix (fun v => sayEntry (rec v) v env rf ix clobber owner dest di) (recoverEntry rec' env rf ix clobber owner dest di) :=
  .bind (.lift _) fun _ => .ite (.pure _) (tells_named env rf ix h _ _ _ _)

theorem tells_entries {rec : Bool → UInt64 → UInt64 → Bytes → Say (Option RecErr)} {rec' : UInt64 → UInt64 → Bytes → Rec (Option RecErr)}
    (h : ∀ o d p, Tells rf ix (fun v => rec v o d p) (rec' o d p)) (clobber : Bool) (owner : UInt64) (dest : Bytes) (dis : List DirItem) :
    Tells rf ix (fun v => sayEntries (rec v) v env rf ix clobber owner dest dis) (recoverEntries rec' env rf ix clobber owner dest dis) := by
  induction dis with
  | nil => exact .pure _
  | cons di r ih => exact .bind (tells_entry env rf ix h _ _ _ _) fun _ => ih

/-- The model without messages does not name what `enterDir` does. -/
theorem recoverDir_enter (clobber : Bool) (fuel : Nat) (owner dirID : UInt64) (dest : Bytes) :
    recoverDir env rf ix clobber (fuel + 1) owner dirID dest = (do
      if (← Cmd.get).visited.contains (owner, dirID) then return none
      else
        if ← enterDir env owner dirID dest then
          let dis ← Cmd.lift (readDirItems rf ix owner dirID)
          recoverEntries (recoverDir env rf ix clobber fuel) env rf ix clobber owner dest dis
          return none
        else return some .sys) := by
  rfl

theorem tells_dir (clobber : Bool) (fuel : Nat) : ∀ (owner dirID : UInt64) (dest : Bytes),
    Tells rf ix (fun v => sayDir v env rf ix clobber fuel owner dirID dest) (recoverDir env rf ix clobber fuel owner dirID dest) := by
  induction fuel with
  | zero => exact fun _ _ _ => .hang
  | succ fuel ih =>
    intro owner dirID dest
    rw [recoverDir_enter]
    refine Tells.get (f := fun v s => if s.visited.contains (owner, dirID) then return none else do
        if ← quietly (enterDir env owner dirID dest) then
          let dis ← Cmd.lift (readDirItems rf ix owner dirID)
          sayEntries (sayDir v env rf ix clobber fuel) v env rf ix clobber owner dest dis
          return none
        else return some RecErr.sys) fun s => .ite (.pure _) (.bind (.quietly (still_enterDir _ _ _ _)) fun _ => .ite (.bind (.lift _) fun _ =>
      .bind (tells_entries env rf ix ih _ _ _ _) fun _ => .pure _) (.pure _))

theorem tells_subvol (clobber : Bool) (fuel : Nat) (dest : Bytes) (r : Range) (s : Slice) :
    Tells rf ix (fun v => saySubvol v env rf fuel ix clobber dest r s) (recoverSubvol env rf fuel ix clobber dest r s) := by
  refine .bind (.lift _) fun k => ?_
  refine Tells.get (f := fun v s => if s.visited.contains (k.objectID, FirstFreeObjectID) then return none else do
      sayVerbose v (.subvol k.objectID (subvolDest dest k.objectID))
      let e ← sayDir v env rf ix clobber fuel k.objectID FirstFreeObjectID (subvolDest dest k.objectID)
      quietly (report (subvolDest dest k.objectID) e)
      return none) (q := fun s => if s.visited.contains (k.objectID, FirstFreeObjectID) then return none else do
      report (subvolDest dest k.objectID) (← recoverDir env rf ix clobber fuel k.objectID FirstFreeObjectID (subvolDest dest k.objectID))
      return none) fun _ => .ite (.pure _) (.say_then rfl (.bind (tells_dir env rf ix _ _ _ _ _) fun _ =>
    .bind (.quietly (still_report _ _)) fun _ => .pure _))

/-- The whole command. -/
theorem tells_recover (clobber : Bool) (fuel : Nat) (dest : Bytes) :
    Tells rf ix (fun v => sayRecoverFiles v env rf fuel ix clobber dest) (doRecoverFiles env rf fuel ix clobber dest) :=
  .bind (.quietly (still_mkdirAll _ _)) fun _ => .ite (.say_then rfl (.bind (tells_dir env rf ix _ _ _ _ _) fun _ => .bind (.quietly (still_report _ _)) fun _ =>
    .bind (.lift _) fun _ => .bind (tells_loop rf ix (fun r s => tells_subvol env rf ix clobber fuel dest r s) rf _) fun _ => .pure _)) .exit

end

end Btrfscue
