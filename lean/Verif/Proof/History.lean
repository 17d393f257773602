import Verif.Proof.Find
import Verif.Spec.History
import Verif.Proof.Access
/-! # Histories of inserts and commits -/

namespace Btrfscue

theorem itemValue_eq (item data : Bytes) (h : item.length = 25) :
    itemValue item data = .ok (item ++ data) := by
  have h25 : ItemLen = 25 := by decide
  simp only [itemValue, goCopyAt, h25]
  have h1 : goCopy (List.replicate (25 + data.length) 0) item =
      item ++ List.replicate data.length 0 := by
    simp only [goCopy, List.length_replicate, h]
    rw [List.take_of_length_le (by omega), List.drop_replicate]
    congr 2
    omega
  rw [h1, if_pos (by simp [h])]
  congr 1
  rw [List.take_append_of_le_length (by omega), List.take_of_length_le (by omega),
    List.drop_append, List.drop_eq_nil_of_le (by omega), h]
  simp

/-- The state of a writable index: `l` is what transactions see, `d` what is
durable, `n` the number of inserts in flight. -/
def Index.Inv (ix : Index) (l d : AStore) (n : Nat) : Prop :=
  ix.readOnly = false ∧ ix.disk = some d.enc ∧ ix.txNum = n ∧ l.Sorted ∧ d.Sorted ∧
    ((ix.tx = none ∧ l = d ∧ n = 0 ∧ ix.bucketSet = false) ∨
     (ix.tx = some ⟨true, some l.enc⟩ ∧ ix.bucketSet = true))

theorem Index.Inv.commit {ix : Index} {l d : AStore} {n : Nat} (h : ix.Inv l d n) :
    ∃ ix', ix.commit = (ix', none) ∧ ix'.Inv l l 0 ∧ ix'.generation = ix.generation := by
  obtain ⟨h1, h2, h3, h4, h5, h6⟩ := h
  rcases h6 with ⟨ht, rfl, rfl, hb⟩ | ⟨ht, hb⟩
  · refine ⟨ix, by simp [Index.commit, ht], ⟨h1, h2, h3, h4, h5, Or.inl ⟨ht, rfl, rfl, hb⟩⟩, rfl⟩
  · refine ⟨{ ix with disk := some l.enc, tx := none, txNum := 0, bucketSet := false },
      by simp [Index.commit, ht], ⟨h1, rfl, rfl, h4, h4, Or.inl ⟨rfl, rfl, rfl, rfl⟩⟩, rfl⟩

theorem Index.Inv.ensure {ix : Index} {l d : AStore} {n : Nat} (h : ix.Inv l d n) :
    ∃ ix', ix.ensureTx true = (ix', none) ∧ ix'.Inv l d n ∧ ix'.view = .ok ⟨l.enc, ix.generation⟩ ∧
      ix'.generation = ix.generation := by
  obtain ⟨h1, h2, h3, h4, h5, h6⟩ := h
  rcases h6 with ⟨ht, rfl, rfl, hb⟩ | ⟨ht, hb⟩
  · refine ⟨{ ix with tx := some ⟨true, some l.enc⟩, bucketSet := true },
      by simp [Index.ensureTx, ht, Index.begin, h1, h2], ⟨h1, h2, h3, h4, h5,
      Or.inr ⟨rfl, rfl⟩⟩, by simp [Index.view], rfl⟩
  · exact ⟨ix, by simp [Index.ensureTx, ht], ⟨h1, h2, h3, h4, h5, Or.inr ⟨ht, hb⟩⟩,
      by simp [Index.view, hb, ht], rfl⟩

theorem newIndexKey_encode (o : UInt64) (k : Key) (g : UInt64) :
    newIndexKey o k g = (VKey.mk o k g).encode := rfl

theorem Index.Inv.insert {ix : Index} {l d : AStore} {n : Nat} (h : ix.Inv l d n) (i : Ins) :
    ∃ ix', ix.insertItem i.key i.h i.item i.data = .ok (ix', none) ∧
      ix'.Inv (l.put i.version i.value)
        (if n + 1 > 10000 then l.put i.version i.value else d)
        (if n + 1 > 10000 then 0 else n + 1) ∧ ix'.generation = ix.generation := by
  obtain ⟨ix1, he, hi, hv, hg⟩ := h.ensure
  obtain ⟨h1, h2, h3, h4, h5, h6⟩ := hi
  have hput : Bucket.put l.enc (newIndexKey i.owner i.key i.gen) (i.item ++ i.data) =
      (l.put i.version i.value).enc := by
    rw [newIndexKey_encode]; exact enc_put l _ _
  have hinv : Index.Inv
      { ix1 with tx := some ⟨true, some (l.put i.version i.value).enc⟩, txNum := ix1.txNum + 1 }
      (l.put i.version i.value) d (n + 1) := by
    refine ⟨h1, h2, by simp [h3], AStore.put_sorted h4 _ _, h5, Or.inr ⟨rfl, ?_⟩⟩
    rcases h6 with ⟨ht, -, -, hb⟩ | ⟨ht, hb⟩
    · simp [Index.view, hb] at hv
    · exact hb
  simp only [Index.insertItem, he, itemValue_eq _ _ i.item_len, i.owner_ok, i.gen_ok, hv,
    Go.ok_bind, hput, h3]
  by_cases hn : n + 1 > 10000
  · rw [if_pos hn, if_pos hn, if_pos hn]
    obtain ⟨ix2, hc, hi2, hg2⟩ := hinv.commit
    refine ⟨ix2, ?_, hi2, ?_⟩
    · rw [Go.pure_eq, ← hc, h3]
    · rw [hg2]; exact hg
  · rw [if_neg hn, if_neg hn, if_neg hn]
    refine ⟨_, rfl, ?_, hg⟩
    rw [h3] at hinv
    exact hinv

/-- Effect of a history on a decoded store. -/
def AStore.apply (l : AStore) : List IxOp → AStore
  | [] => l
  | .commit :: r => AStore.apply l r
  | .insert i :: r => AStore.apply (l.put i.version i.value) r

theorem AStore.apply_sorted {l : AStore} (h : l.Sorted) (ops : List IxOp) : (l.apply ops).Sorted := by
  induction ops generalizing l with
  | nil => exact h
  | cons op r ih =>
    cases op with
    | commit => exact ih h
    | insert i => exact ih (AStore.put_sorted h _ _)

theorem AStore.mem_apply {l : AStore} (h : l.Sorted) (ops : List IxOp) (v : VKey) (x : Bytes) :
    (v, x) ∈ l.apply ops ↔ lastValue ops v = some x ∨ (lastValue ops v = none ∧ (v, x) ∈ l) := by
  induction ops generalizing l with
  | nil => simp [AStore.apply, lastValue]
  | cons op r ih =>
    cases op with
    | commit => exact ih h
    | insert i =>
      simp only [AStore.apply, lastValue]
      rw [ih (AStore.put_sorted h _ _), AStore.mem_put h]
      cases hl : lastValue r v with
      | some y => simp
      | none =>
        simp only [reduceCtorEq, true_and, false_or, Prod.mk.injEq]
        by_cases hv : i.version = v
        · subst hv; simp [eq_comm]
        · rw [if_neg hv]
          simp only [reduceCtorEq, false_or, true_and]
          constructor
          · rintro (⟨rfl, -⟩ | ⟨h1, -⟩)
            · exact absurd rfl hv
            · exact h1
          · intro h1; exact Or.inr ⟨h1, fun h2 => hv h2.symm⟩

theorem AStore.apply_append (l : AStore) (a b : List IxOp) :
    l.apply (a ++ b) = (l.apply a).apply b := by
  induction a generalizing l with
  | nil => rfl
  | cons op r ih => cases op <;> exact ih _

/-- No commit in a history. -/
def NoCommit (ops : List IxOp) : Prop := ∀ op ∈ ops, ∃ i, op = .insert i

/-- Running a history: nothing fails, the visible store is the effect of the whole
history, the durable one that of a prefix. -/
theorem Index.Inv.run {ix : Index} {l0 : AStore} (ops : List IxOp) :
    ∀ {p s : List IxOp}, ix.Inv (l0.apply (p ++ s)) (l0.apply p) (insertCount s) → NoCommit s →
      insertCount s ≤ 10000 →
      ∃ ix' p' s', ix.run ops = .ok (ix', none) ∧ p ++ s ++ ops = p' ++ s' ∧
        ix'.Inv (l0.apply (p ++ s ++ ops)) (l0.apply p') (insertCount s') ∧ NoCommit s' ∧
        insertCount s' ≤ 10000 ∧ (∃ q, p' = p ++ q) ∧ ix'.generation = ix.generation := by
  induction ops generalizing ix with
  | nil =>
    intro p s h hs hn
    exact ⟨ix, p, s, rfl, by simp, by simpa using h, hs, hn, ⟨[], by simp⟩, rfl⟩
  | cons op r ih =>
    intro p s h hs hn
    cases op with
    | commit =>
      obtain ⟨ix1, hc, hi, hg⟩ := h.commit
      have happ : l0.apply (p ++ s ++ [IxOp.commit]) = l0.apply (p ++ s) := by
        rw [AStore.apply_append]; rfl
      obtain ⟨ix', p', s', h1, h2, h3, h4, h5, ⟨q, h6⟩, h7⟩ :=
        ih (ix := ix1) (p := p ++ s ++ [.commit]) (s := []) (by
          rw [List.append_nil, happ]; exact hi) (by intro op h; cases h) (Nat.zero_le _)
      refine ⟨ix', p', s', ?_, ?_, ?_, h4, h5, ?_, h7.trans hg⟩
      · simp only [Index.run, Index.step, hc, Go.ok_bind]; exact h1
      · rw [← h2]; simp
      · simpa using h3
      · exact ⟨s ++ [.commit] ++ q, by rw [h6]; simp⟩
    | insert i =>
      obtain ⟨ix1, hc, hi, hg⟩ := h.insert i
      have happ : l0.apply (p ++ s ++ [IxOp.insert i]) = (l0.apply (p ++ s)).put i.version i.value := by
        rw [AStore.apply_append]; rfl
      by_cases hn1 : insertCount s + 1 > 10000
      · rw [if_pos hn1, if_pos hn1] at hi
        obtain ⟨ix', p', s', h1, h2, h3, h4, h5, ⟨q, h6⟩, h7⟩ :=
          ih (ix := ix1) (p := p ++ s ++ [.insert i]) (s := []) (by
            rw [List.append_nil, happ]; exact hi) (by intro op h; cases h) (Nat.zero_le _)
        refine ⟨ix', p', s', ?_, ?_, ?_, h4, h5, ?_, h7.trans hg⟩
        · simp only [Index.run, Index.step, hc, Go.ok_bind]; exact h1
        · rw [← h2]; simp
        · simpa using h3
        · exact ⟨s ++ [.insert i] ++ q, by rw [h6]; simp⟩
      · rw [if_neg hn1, if_neg hn1] at hi
        have hcount : insertCount (s ++ [.insert i]) = insertCount s + 1 := by
          clear h hs hn hi happ hn1 hc ih hg
          induction s with
          | nil => rfl
          | cons op t iht => cases op <;> simp [insertCount, iht]
        obtain ⟨ix', p', s', h1, h2, h3, h4, h5, ⟨q, h6⟩, h7⟩ :=
          ih (ix := ix1) (p := p) (s := s ++ [.insert i]) (by
            rw [hcount, ← List.append_assoc, happ]; exact hi) (by
              intro op hop
              rcases List.mem_append.mp hop with hop | hop
              · exact hs op hop
              · simp only [List.mem_singleton] at hop; exact ⟨i, hop⟩) (by omega)
        refine ⟨ix', p', s', ?_, ?_, ?_, h4, h5, ⟨q, h6⟩, h7.trans hg⟩
        · simp only [Index.run, Index.step, hc, Go.ok_bind]; exact h1
        · rw [← h2]; simp
        · simpa using h3

end Btrfscue
