import Verif.Proofs.SerialMap

/-! Sequential schedules, a save in order, static maps, and concrete formats. -/

namespace Ndt
open St

/-! ### schedules -/
namespace Threads

/-- one thread after the other -/
def sequential (order : List Nat) : List Nat := order.flatMap fun c => [c, c, c]

theorem foldl_three (ok : Nat → Bool) (s : Threads) (c : Nat) (l : List Nat) :
    (sequential (c :: l)).foldl (step ok) s = (sequential l).foldl (step ok) (((s.step ok c).step ok c).step ok c) := by
  simp [sequential]

theorem phase_foldl_other (ok : Nat → Bool) (c : Nat) : ∀ (l : List Nat) (s : Threads), c ∉ l → (l.foldl (step ok) s).phase c = s.phase c
  | [], _, _ => rfl
  | x :: l, s, h => by
    rw [List.mem_cons, not_or] at h
    rw [List.foldl_cons, phase_foldl_other ok c l _ h.2, (step_other ok s x c h.1).1]

theorem ran_foldl_other (ok : Nat → Bool) (c : Nat) : ∀ (l : List Nat) (s : Threads), c ∉ l → (l.foldl (step ok) s).ran c = s.ran c
  | [], _, _ => rfl
  | x :: l, s, h => by
    rw [List.mem_cons, not_or] at h
    rw [List.foldl_cons, ran_foldl_other ok c l _ h.2, (step_other ok s x c h.1).2]

theorem mem_sequential (c : Nat) (l : List Nat) : c ∈ sequential l ↔ c ∈ l := by
  unfold sequential
  rw [List.mem_flatMap]
  constructor
  · rintro ⟨x, hx, h⟩
    simp only [List.mem_cons, List.not_mem_nil, or_false] at h
    rcases h with rfl | rfl | rfl <;> exact hx
  · intro h; exact ⟨c, h, by simp⟩

/-- done stays done -/
theorem done_foldl (ok : Nat → Bool) (c : Nat) : ∀ (l : List Nat) (s : Threads), s.phase c = .done → (l.foldl (step ok) s).phase c = .done
  | [], _, h => h
  | x :: l, s, h => by
    rw [List.foldl_cons]
    refine done_foldl ok c l _ ?_
    by_cases hx : c = x
    · subst hx; unfold step; rw [h]; exact h
    · rw [(step_other ok s x c hx).1, h]

theorem sequential_done (ok : Nat → Bool) : ∀ (l : List Nat) (s : Threads) (c : Nat), c ∈ l → ((sequential l).foldl (step ok) s).phase c = .done
  | x :: l, s, c, h => by
    rw [foldl_three]
    by_cases hx : c = x
    · subst hx
      exact done_foldl ok c _ _ (three_done ok s c)
    · rcases List.mem_cons.1 h with h | h
      · exact absurd h hx
      · exact sequential_done ok l _ c h

/-- in a sequential schedule the flag is the conjunction of the results -/
theorem sequential_flag (ok : Nat → Bool) : ∀ (l : List Nat) (s : Threads), l.Nodup → (∀ c ∈ l, s.phase c = .start) →
    ((sequential l).foldl (step ok) s).flag = (s.flag && l.all ok)
  | [], s, _, _ => by simp [sequential]
  | x :: l, s, hnd, hst => by
    rw [List.nodup_cons] at hnd
    have hx := hst x List.mem_cons_self
    rw [foldl_three, sequential_flag ok l _ hnd.2]
    · have : (((s.step ok x).step ok x).step ok x).flag = (s.flag && ok x) := by
        cases hf : s.flag <;> simp [step, hx, hf]
      rw [this, List.all_cons, Bool.and_assoc]
    · intro c hc
      have hne : c ≠ x := fun e => hnd.1 (e ▸ hc)
      rw [(step_other ok _ x c hne).1, (step_other ok _ x c hne).1, (step_other ok _ x c hne).1]
      exact hst c (List.mem_cons_of_mem _ hc)

/-- the schedule of the race: `o` has evaluated the condition and called its function when the others run, and writes its result last -/
def racing (n o : Nat) : List Nat := [o, o] ++ (sequential ((List.range n).filter fun c => decide (c ≠ o)) ++ [o])

theorem racing_spec (ok : Nat → Bool) (n o : Nat) (ho : ok o = true) :
    (run ok (racing n o)).Joined n ∧ (run ok (racing n o)).flag = true := by
  have hno : o ∉ sequential ((List.range n).filter fun c => decide (c ≠ o)) := by
    rw [mem_sequential, List.mem_filter]; simp
  have h0 : ((init.step ok o).step ok o).phase o = .result true := by simp [step, init, ho]
  have h1 : run ok (racing n o) = ((sequential ((List.range n).filter fun c => decide (c ≠ o))).foldl (step ok) ((init.step ok o).step ok o)).step ok o := by
    unfold racing
    rw [run_append, List.foldl_append]
    rfl
  rw [h1]
  generalize hs : (sequential ((List.range n).filter fun c => decide (c ≠ o))).foldl (step ok) ((init.step ok o).step ok o) = s
  have h2 : s.phase o = .result true := by rw [← hs, phase_foldl_other ok o _ _ hno, h0]
  constructor
  · intro c hc
    by_cases hco : c = o
    · subst hco; simp [step, h2]
    · rw [(step_other ok s o c hco).1, ← hs]
      exact sequential_done ok _ _ c (List.mem_filter.2 ⟨List.mem_range.2 hc, by simpa using hco⟩)
  · simp [step, h2]

/-- the threads in order -/
theorem ordered_joined (ok : Nat → Bool) (n : Nat) : (run ok (sequential (List.range n))).Joined n :=
  fun c hc => sequential_done ok _ _ c (List.mem_range.2 hc)

end Threads

/-! ### a save that proceeds in order -/
namespace SaveTrace

/-- the effects of thread `c` -/
def inOrderThread (bl : Nat → List Bytes) (c : Nat) : List (Nat × Eff) := (c, .create (.store c)) :: (bl c).map fun b => (c, .append (.store c) b)

theorem filter_inOrder (bl : Nat → List Bytes) (c : Nat) : ∀ n : Nat,
    ((List.range n).flatMap (inOrderThread bl)).filter (fun e => decide (e.1 = c)) = if c < n then inOrderThread bl c else []
  | 0 => by simp
  | n + 1 => by
    rw [List.range_succ, List.flatMap_append, List.filter_append, filter_inOrder bl c n, List.flatMap_singleton]
    by_cases hc : c = n
    · subst hc
      rw [if_neg (lt_irrefl _), if_pos (Nat.lt_succ_self _), List.nil_append]
      unfold inOrderThread
      rw [List.filter_cons_of_pos (by simp)]
      congr 1
      rw [List.filter_map]
      simp [Function.comp_def]
    · have h2 : (inOrderThread bl n).filter (fun e => decide (e.1 = c)) = [] := by
        unfold inOrderThread
        rw [List.filter_cons_of_neg (by simpa using Ne.symm hc), List.filter_map]
        simp [Function.comp_def, Ne.symm hc]
      rw [h2, List.append_nil]
      by_cases h : c < n
      · rw [if_pos h, if_pos (by omega)]
      · rw [if_neg h, if_neg (by omega)]

/-- every storage is created and written before the next one -/
def inOrder (d : Nat) (old : Option Dir) (hb : Bytes) (sb : Nat → Bytes) (removed : List FileName)
    (hrem : ∀ dir f, old = some dir → (dir f).isSome = true → f ∈ removed) : SaveTrace d old hb sb where
  removed := removed
  removed_all := hrem
  headerBlocks := [hb]
  header_eq := by simp
  storeBlocks := fun c => [sb c]
  store_eq := fun c _ => by simp
  threads := (List.range (2 ^ d)).flatMap (inOrderThread fun c => [sb c])
  threads_lt := by
    intro e he
    obtain ⟨c, hc, h⟩ := List.mem_flatMap.1 he
    have : e.1 = c := by
      unfold inOrderThread at h
      simp at h
      rcases h with rfl | rfl <;> rfl
    rw [this]; exact List.mem_range.1 hc
  thread_eq := by
    intro c hc
    rw [filter_inOrder, if_pos hc]
    simp [inOrderThread]

/-- all files are created before any of them is written -/
def createFirst (d : Nat) (old : Option Dir) (hb : Bytes) (sb : Nat → Bytes) (removed : List FileName)
    (hrem : ∀ dir f, old = some dir → (dir f).isSome = true → f ∈ removed) : SaveTrace d old hb sb where
  removed := removed
  removed_all := hrem
  headerBlocks := [hb]
  header_eq := by simp
  storeBlocks := fun c => [sb c]
  store_eq := fun c _ => by simp
  threads := (List.range (2 ^ d)).map (fun c => (c, .create (.store c))) ++ (List.range (2 ^ d)).map (fun c => (c, .append (.store c) (sb c)))
  threads_lt := by
    intro e he
    rcases List.mem_append.1 he with h | h
    · obtain ⟨c, hc, rfl⟩ := List.mem_map.1 h; exact List.mem_range.1 hc
    · obtain ⟨c, hc, rfl⟩ := List.mem_map.1 h; exact List.mem_range.1 hc
  thread_eq := by
    intro c hc
    have key : (List.range (2 ^ d)).filter (fun x => decide (x = c)) = [c] := by
      have h1 : (List.range (2 ^ d)).filter (fun x => decide (x = c)) = List.replicate ((List.range (2 ^ d)).count c) c := by
        rw [← List.filter_beq]
        refine List.filter_congr fun x _ => ?_
        rw [Bool.eq_iff_iff]; simp
      rw [h1, List.count_eq_one_of_mem List.nodup_range (List.mem_range.2 hc)]
      rfl
    rw [List.filter_append, List.filter_map, List.filter_map, List.map_append, List.map_map, List.map_map]
    simp only [Function.comp_def]
    rw [key]
    rfl

end SaveTrace

/-! ### static maps -/
section
variable {d : Nat} {K P D : Type} [Inhabited D] {size : Fin d → Nat} {lo : Idx d} {exp : D → Bool}

/-- the bundles of a reachable static map are those that were inside the map, its bounds never change -/
theorem static_bounds {st : St (arrayBackend d) D} (hR : MapReachable (.static size lo) exp st) :
    st.minB = lo ∧ st.maxB = (fun a => lo a + (size a * 2 : Nat) - 1) ∧ (∀ i, (arrayBackend d).ok st.bundles i = decide (∀ a, lo a ≤ i a ∧ i a < lo a + (size a * 2 : Nat))) := by
  obtain ⟨_, hK⟩ := hR.spec
  obtain ⟨h1, h2⟩ := hK.static rfl
  refine ⟨h1, h2, ?_⟩
  intro i
  exact congrFun hK.okB i

end

/-! ### out-of-contract loads -/
section
variable {d : Nat} {B : Backend d} {D : Type}

theorem insertRecords_bad (L : B.Lawful) : ∀ (l : List (Idx d × D)) (h : Nat → D) (n : Nat) (s : B.Store Nat), (∃ e ∈ l, B.ok s e.1 = false) → insertRecords l (h, n, s) = none
  | [], _, _, _, he => by obtain ⟨e, he, _⟩ := he; cases he
  | (i, v) :: l, h, n, s, he => by
    rw [insertRecords]
    split
    · rename_i hc
      obtain ⟨e, hm, hb⟩ := he
      rcases List.mem_cons.1 hm with rfl | hm
      · simp [hb] at hc
      · exact insertRecords_bad L l _ _ _ ⟨e, hm, by rw [L.ok_insert]; exact hb⟩
    · rfl

theorem insertStorages_bad (L : B.Lawful) (fresh : Nat → B.Store Nat) (recs : Nat → List (Idx d × D)) (j : Nat) (e : Idx d × D) (he : e ∈ recs j)
    (hb : B.ok (fresh j) e.1 = false) : ∀ (m c : Nat) (x : (Nat → D) × Nat × (Nat → B.Store Nat)), c ≤ j → j < c + m → insertStorages fresh recs c m x = none
  | 0, c, x, h1, h2 => absurd h2 (by omega)
  | m + 1, c, (h, n, S), h1, h2 => by
    rw [insertStorages]
    by_cases hc : c = j
    · subst hc
      rw [insertRecords_bad L _ _ _ _ ⟨e, he, hb⟩]
    · cases insertRecords (recs c) (h, n, fresh c) with
      | none => rfl
      | some y => exact insertStorages_bad L fresh recs j e he hb m (c + 1) _ (by omega) (by omega)

end

/-! ### concrete formats -/

/-- little-endian bytes -/
def leBytes : Nat → Nat → Bytes
  | 0, _ => []
  | n + 1, x => UInt8.ofNat (x % 256) :: leBytes n (x / 256)

def ofLeBytes : Bytes → Nat
  | [] => 0
  | b :: l => b.toNat + 256 * ofLeBytes l

theorem leBytes_length : ∀ n x, (leBytes n x).length = n
  | 0, _ => rfl
  | n + 1, x => by rw [leBytes, List.length_cons, leBytes_length n]

theorem ofLeBytes_leBytes : ∀ n x, x < 256 ^ n → ofLeBytes (leBytes n x) = x
  | 0, x, h => by simp at h; simp [leBytes, ofLeBytes, h]
  | n + 1, x, h => by
    rw [leBytes, ofLeBytes, ofLeBytes_leBytes n (x / 256) (by rw [pow_succ] at h; omega)]
    have : (UInt8.ofNat (x % 256)).toNat = x % 256 := by simp [UInt8.toNat_ofNat']
    rw [this]; omega

/-- unsigned integers of `n` bytes -/
def natCodec (n : Nat) : Codec Nat where
  size := n
  enc := leBytes n
  dec := ofLeBytes
  Ok := fun x => x < 256 ^ n
  len := leBytes_length n
  dec_enc := ofLeBytes_leBytes n

/-- two's complement integers of 32 bits -/
def intCodec : Codec Int where
  size := 4
  enc := fun x => leBytes 4 (x % 4294967296).toNat
  dec := fun bs => if ofLeBytes bs < 2147483648 then (ofLeBytes bs : Int) else (ofLeBytes bs : Int) - 4294967296
  Ok := fun x => -2147483648 ≤ x ∧ x ≤ 2147483647
  len := fun _ => leBytes_length _ _
  dec_enc := by
    intro x h
    have h2 : (x % 4294967296).toNat < 256 ^ 4 := by norm_num; omega
    rw [ofLeBytes_leBytes 4 _ h2]
    split <;> omega

/-- the formats of a PC, with resolution and origin in fixed-point form -/
def pcIo : Io Nat Nat where
  int := intCodec
  int_ok := fun _ h1 h2 => ⟨h1, h2⟩
  int_pos := by decide
  nat := natCodec 8
  nat_ok := fun x h => (by have : (256 : Nat) ^ 8 = 2 ^ 64 := by norm_num
                           show x < 256 ^ 8
                           omega)
  real := natCodec 8
  pose := natCodec 24

/-- sample counts as distributions -/
def unitCodec : Codec (Multiset Unit) where
  size := 8
  enc := fun s => leBytes 8 s.card
  dec := fun bs => Multiset.replicate (ofLeBytes bs) ()
  Ok := fun s => s.card < 256 ^ 8
  len := fun _ => leBytes_length _ _
  dec_enc := fun s h => by
    rw [ofLeBytes_leBytes 8 _ h]
    exact (Multiset.eq_replicate.2 ⟨rfl, fun _ _ => rfl⟩).symm

end Ndt
