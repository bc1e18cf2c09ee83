import Verif.Model.Serial
import Verif.Proofs.CoreStep
import Mathlib.Data.List.Basic

/-! Reading back what was written. -/

namespace Ndt

namespace Codec
variable {α : Type}

theorem array_ok (A : Codec α) : ∀ (n : Nat) (x : Fin n → α), (∀ a, A.Ok (x a)) → (A.array n).Ok x
  | 0, _, _ => trivial
  | n + 1, x, h => ⟨h 0, array_ok A n _ fun a => h a.succ⟩

theorem array_size (A : Codec α) : ∀ n : Nat, (A.array n).size = n * A.size
  | 0 => by simp [Codec.array]
  | n + 1 => by
    show A.size + (A.array n).size = _
    rw [array_size A n, Nat.succ_mul, Nat.add_comm]

theorem length_flatMap (A : Codec α) : ∀ l : List α, (l.flatMap A.enc).length = l.length * A.size
  | [] => by simp
  | x :: l => by
    rw [List.flatMap_cons, List.length_append, A.len, length_flatMap A l, List.length_cons, Nat.succ_mul, Nat.add_comm]

/-- The record loop reads the first ⌈remaining / reported⌉ records. -/
theorem readLoop_eq (A : Codec α) (rep : Nat) (hrep : 0 < rep) : ∀ (l : List α) (f rem : Nat), (∀ x ∈ l, A.Ok x) → rem ≤ f → rem ≤ l.length * rep →
    readLoop A.size rep A.dec f rem (l.flatMap A.enc) = l.take ((rem + rep - 1) / rep)
  | [], f, rem, _, _, h => by
    have h0 : rem = 0 := by simpa using h
    subst h0
    cases f <;> simp [readLoop]
  | x :: l, 0, rem, _, hf, _ => by
    have h0 : rem = 0 := by omega
    subst h0
    have : (0 + rep - 1) / rep = 0 := Nat.div_eq_of_lt (by omega)
    rw [this]; rfl
  | x :: l, f + 1, rem, hok, hf, h => by
    rw [readLoop]
    by_cases h0 : rem = 0
    · subst h0
      have : (0 + rep - 1) / rep = 0 := Nat.div_eq_of_lt (by omega)
      rw [if_pos rfl, this]; rfl
    · rw [if_neg h0]
      have e1 : (x :: l).flatMap A.enc = A.enc x ++ l.flatMap A.enc := List.flatMap_cons
      have e2 : ((x :: l).flatMap A.enc).take A.size = A.enc x := by rw [e1, ← A.len x]; exact List.take_left
      have e3 : ((x :: l).flatMap A.enc).drop A.size = l.flatMap A.enc := by rw [e1, ← A.len x]; exact List.drop_left
      rw [e2, e3, A.dec_enc x (hok x List.mem_cons_self)]
      have hl : (x :: l).length * rep = l.length * rep + rep := by rw [List.length_cons, Nat.succ_mul]
      rw [readLoop_eq A rep hrep l f (rem - rep) (fun y hy => hok y (List.mem_cons_of_mem _ hy)) (by omega) (by omega)]
      by_cases hle : rem ≤ rep
      · have a1 : (rem + rep - 1) / rep = 1 := by
          rw [Nat.div_eq_iff hrep]
          omega
        have a2 : (rem - rep + rep - 1) / rep = 0 := Nat.div_eq_of_lt (by omega)
        rw [a1, a2]; rfl
      · have : (rem + rep - 1) / rep = (rem - rep + rep - 1) / rep + 1 := by
          have : rem + rep - 1 = (rem - rep + rep - 1) + rep := by omega
          rw [this, Nat.add_div_right _ hrep]
        rw [this, List.take_succ_cons]

/-- an exact byte count reads all records back -/
theorem readLoop_exact (A : Codec α) (hpos : 0 < A.size) (l : List α) (f : Nat) (hok : ∀ x ∈ l, A.Ok x) (hf : l.length * A.size ≤ f) :
    readLoop A.size A.size A.dec f (l.length * A.size) (l.flatMap A.enc) = l := by
  rw [readLoop_eq A A.size hpos l f _ hok hf (le_refl _)]
  have : (l.length * A.size + A.size - 1) / A.size = l.length := by
    rw [Nat.div_eq_iff hpos]
    constructor
    · omega
    · omega
  rw [this, List.take_length]

end Codec

section
variable {d : Nat} {B : Backend d} {D : Type}

/-- the index of an inserted record -/
theorem insertRecords_spec (L : B.Lawful) : ∀ (l : List (Idx d × D)) (h : Nat → D) (n : Nat) (s : B.Store Nat), (l.map Prod.fst).Nodup →
    L.Inv s → (∀ e ∈ l, B.ok s e.1 = true ∧ B.look s e.1 = none) → (∀ k a, B.look s k = some a → a < n) →
    (∀ k k' a, B.look s k = some a → B.look s k' = some a → k = k') →
    ∃ h' n' s', insertRecords l (h, n, s) = some (h', n', s') ∧ n ≤ n' ∧ (∀ a, a < n → h' a = h a) ∧ L.Inv s' ∧
      (∀ k, B.ok s' k = B.ok s k) ∧ (∀ k a, B.look s' k = some a → a < n') ∧ (∀ k k' a, B.look s' k = some a → B.look s' k' = some a → k = k') ∧
      (∀ k a, B.look s' k = some a → B.look s k = some a ∨ n ≤ a) ∧
      (∀ e ∈ l, ∃ a, B.look s' e.1 = some a ∧ h' a = e.2) ∧ (∀ k, k ∉ l.map Prod.fst → B.look s' k = B.look s k)
  | [], h, n, s, _, hI, _, hn, hj => ⟨h, n, s, rfl, le_refl _, fun _ _ => rfl, hI, fun _ => rfl, hn, hj, fun _ _ x => Or.inl x, by simp, fun _ _ => rfl⟩
  | (i, v) :: l, h, n, s, hnd, hI, hl, hn, hj => by
    obtain ⟨hok, hlook⟩ := hl (i, v) List.mem_cons_self
    simp only at hok hlook
    have hget : B.get s i = none := by rw [← St.look_of_ok B s i hok]; exact hlook
    rw [List.map_cons, List.nodup_cons] at hnd
    have hli : ∀ j, B.look (B.insert s i n) j = if j = i then some n else B.look s j := fun j => L.look_insert s i j n hI hok hlook
    have hne : ∀ e ∈ l, e.1 ≠ i := fun e he heq => hnd.1 (heq ▸ List.mem_map.2 ⟨e, he, rfl⟩)
    obtain ⟨h', n', s', x1, x2, x3, x4, x5, x6, x7, x8, x9, x10⟩ := insertRecords_spec L l (Function.update h n v) (n + 1) (B.insert s i n) hnd.2
      (L.inv_insert s i n hI hok)
      (fun e he => ⟨by rw [L.ok_insert]; exact (hl e (List.mem_cons_of_mem _ he)).1,
        by rw [hli, if_neg (hne e he)]; exact (hl e (List.mem_cons_of_mem _ he)).2⟩)
      (by
        intro k a hk
        rw [hli] at hk
        split at hk
        · cases hk; omega
        · have := hn k a hk; omega)
      (by
        intro k k' a hk hk'
        rw [hli] at hk hk'
        split at hk <;> split at hk'
        · rename_i e1 e2; rw [e1, e2]
        · cases hk; have := hn _ _ hk'; omega
        · cases hk'; have := hn _ _ hk; omega
        · exact hj k k' a hk hk')
    refine ⟨h', n', s', ?_, by omega, ?_, x4, ?_, x6, x7, ?_, ?_, ?_⟩
    · rw [insertRecords, if_pos (by rw [hok, hget]; rfl)]; exact x1
    · intro a ha
      rw [x3 a (by omega), Function.update_of_ne (by omega)]
    · intro k; rw [x5, L.ok_insert]
    · intro k a hk
      rcases x8 k a hk with y | y
      · rw [hli] at y
        split at y
        · cases y; exact Or.inr (le_refl _)
        · exact Or.inl y
      · exact Or.inr (by omega)
    · intro e he
      rcases List.mem_cons.1 he with rfl | he
      · refine ⟨n, ?_, ?_⟩
        · rw [x10 i hnd.1, hli, if_pos rfl]
        · rw [x3 n (by omega), Function.update_self]
      · exact x9 e he
    · intro k hk
      rw [List.map_cons, List.mem_cons, not_or] at hk
      rw [x10 k hk.2, hli, if_neg hk.1]

/-- what loaded storages look like -/
structure Loaded (L : B.Lawful) (h : Nat → D) (n : Nat) (S : Nat → B.Store Nat) : Prop where
  store : ∀ c, L.Inv (S c)
  fresh : ∀ c k a, B.look (S c) k = some a → a < n
  inj : ∀ c k c' k' a, B.look (S c) k = some a → B.look (S c') k' = some a → c = c' ∧ k = k'

theorem insertStorages_spec (L : B.Lawful) (fresh : Nat → B.Store Nat) (recs : Nat → List (Idx d × D)) (hF : ∀ c, L.Inv (fresh c))
    (hE : ∀ c k, B.look (fresh c) k = none) : ∀ (m c : Nat) (h : Nat → D) (n : Nat) (S : Nat → B.Store Nat), Loaded L h n S →
    (∀ j, c ≤ j → j < c + m → ((recs j).map Prod.fst).Nodup ∧ ∀ e ∈ recs j, B.ok (fresh j) e.1 = true) →
    ∃ h' n' S', insertStorages fresh recs c m (h, n, S) = some (h', n', S') ∧ Loaded L h' n' S' ∧ n ≤ n' ∧ (∀ a, a < n → h' a = h a) ∧
      (∀ j, ¬ (c ≤ j ∧ j < c + m) → S' j = S j) ∧
      ∀ j, c ≤ j → j < c + m → (∀ k, B.ok (S' j) k = B.ok (fresh j) k) ∧ ∀ k x, (B.look (S' j) k).map h' = some x ↔ (k, x) ∈ recs j
  | 0, c, h, n, S, hL, _ => ⟨h, n, S, rfl, hL, le_refl _, fun _ _ => rfl, fun _ _ => rfl, fun j h1 h2 => absurd h2 (by omega)⟩
  | m + 1, c, h, n, S, hL, hr => by
    obtain ⟨hnd, hok⟩ := hr c (le_refl _) (by omega)
    obtain ⟨h1, n1, s, x1, x2, x3, x4, x5, x6, x7, x8, x9, x10⟩ := insertRecords_spec L (recs c) h n (fresh c) hnd (hF c)
      (fun e he => ⟨hok e he, hE c e.1⟩) (fun k a hk => by rw [hE] at hk; cases hk) (fun k k' a hk => by rw [hE] at hk; cases hk)
    have hge : ∀ k a, B.look s k = some a → n ≤ a := by
      intro k a hk
      rcases x8 k a hk with y | y
      · rw [hE] at y; cases y
      · exact y
    have hL1 : Loaded L h1 n1 (Function.update S c s) := by
      refine ⟨?_, ?_, ?_⟩
      · intro j
        by_cases hj : j = c
        · subst hj; rw [Function.update_self]; exact x4
        · rw [Function.update_of_ne hj]; exact hL.store j
      · intro j k a hk
        by_cases hj : j = c
        · subst hj; rw [Function.update_self] at hk; exact x6 k a hk
        · rw [Function.update_of_ne hj] at hk; have := hL.fresh j k a hk; omega
      · intro j k j' k' a hk hk'
        by_cases hj : j = c <;> by_cases hj' : j' = c
        · subst hj; subst hj'
          rw [Function.update_self] at hk hk'
          exact ⟨rfl, x7 k k' a hk hk'⟩
        · subst hj
          rw [Function.update_self] at hk; rw [Function.update_of_ne hj'] at hk'
          have := hge k a hk; have := hL.fresh j' k' a hk'; omega
        · subst hj'
          rw [Function.update_self] at hk'; rw [Function.update_of_ne hj] at hk
          have := hge k' a hk'; have := hL.fresh j k a hk; omega
        · rw [Function.update_of_ne hj] at hk; rw [Function.update_of_ne hj'] at hk'
          exact hL.inj j k j' k' a hk hk'
    obtain ⟨h', n', S', y1, y2, y3, y4, y5, y6⟩ := insertStorages_spec L fresh recs hF hE m (c + 1) h1 n1 (Function.update S c s) hL1
      (fun j hj hj' => hr j (by omega) (by omega))
    refine ⟨h', n', S', ?_, y2, by omega, ?_, ?_, ?_⟩
    · rw [insertStorages, x1]; exact y1
    · intro a ha; rw [y4 a (by omega), x3 a ha]
    · intro j hj
      rw [y5 j (by omega), Function.update_of_ne (by omega)]
    · intro j hj hj'
      by_cases hjc : j = c
      · subst hjc
        have hS : S' j = s := by rw [y5 j (by omega), Function.update_self]
        rw [hS]
        refine ⟨x5, ?_⟩
        intro k x
        constructor
        · intro hk
          obtain ⟨a, ha, hx⟩ := Option.map_eq_some_iff.1 hk
          by_cases hm : k ∈ (recs j).map Prod.fst
          · obtain ⟨e, he, rfl⟩ := List.mem_map.1 hm
            obtain ⟨a', ha', hx'⟩ := x9 e he
            rw [ha] at ha'; cases ha'
            rw [y4 a (x6 _ _ ha), hx'] at hx
            rw [← hx]; exact he
          · rw [x10 k hm, hE] at ha; cases ha
        · intro hk
          obtain ⟨a, ha, hx⟩ := x9 (k, x) hk
          rw [ha, Option.map_some, y4 a (x6 _ _ ha), hx]
      · exact y6 j (by omega) (by omega)

theorem bundleFrom_spec (S : Nat → B.Store Nat) : ∀ (l : List (Nat × Idx d)) (b : Bundle), (l.map Prod.fst).Nodup →
    (∀ e ∈ l, B.ok (S e.1) e.2 = true) →
    ∃ b', bundleFrom S l b = some b' ∧ b'.expand = b.expand ∧ (∀ e ∈ l, b'.data e.1 = B.look (S e.1) e.2) ∧
      ∀ c, c ∉ l.map Prod.fst → b'.data c = b.data c
  | [], b, _, _ => ⟨b, rfl, rfl, by simp, fun _ _ => rfl⟩
  | (c, k) :: l, b, hnd, hok => by
    rw [List.map_cons, List.nodup_cons] at hnd
    have h0 := hok (c, k) List.mem_cons_self
    simp only at h0
    obtain ⟨b', x1, x2, x3, x4⟩ := bundleFrom_spec S l { b with data := Function.update b.data c (B.get (S c) k) } hnd.2
      (fun e he => hok e (List.mem_cons_of_mem _ he))
    refine ⟨b', ?_, x2, ?_, ?_⟩
    · rw [bundleFrom, if_pos h0]; exact x1
    · intro e he
      rcases List.mem_cons.1 he with rfl | he
      · rw [x4 _ hnd.1]
        simp only [Function.update_self]
        rw [St.look_of_ok B _ _ h0]
      · exact x3 e he
    · intro j hj
      rw [List.map_cons, List.mem_cons, not_or] at hj
      rw [x4 j hj.2]
      exact Function.update_of_ne hj.1 _ _

theorem insertBundles_spec (L : B.Lawful) (S : Nat → B.Store Nat) : ∀ (l : List (Idx d)) (bs : B.Store Bundle), l.Nodup → L.Inv bs →
    (∀ bi ∈ l, B.ok bs bi = true ∧ B.look bs bi = none ∧ ∀ c, c < 2 ^ d → B.ok (S c) (generateIndex bi c) = true) →
    ∃ bs', insertBundles S l bs = some bs' ∧ L.Inv bs' ∧ (∀ bi, B.ok bs' bi = B.ok bs bi) ∧
      (∀ bi, bi ∉ l → B.look bs' bi = B.look bs bi) ∧
      ∀ bi ∈ l, ∃ b, B.look bs' bi = some b ∧ b.expand = true ∧ ∀ c, b.data c = if c < 2 ^ d then B.look (S c) (generateIndex bi c) else none
  | [], bs, _, hI, _ => ⟨bs, rfl, hI, fun _ => rfl, fun _ _ => rfl, by simp⟩
  | bi :: l, bs, hnd, hI, hl => by
    rw [List.nodup_cons] at hnd
    obtain ⟨hok, hlook, hc⟩ := hl bi List.mem_cons_self
    have hget : B.get bs bi = none := by rw [← St.look_of_ok B bs bi hok]; exact hlook
    obtain ⟨b, x1, x2, x3, x4⟩ := bundleFrom_spec S (applyIndices bi 0 (twoPow d)) Bundle.new
      (by rw [St.applyIndices_list, List.map_map]; simpa [Function.comp_def] using List.nodup_range)
      (by
        intro e he
        rw [St.applyIndices_list] at he
        obtain ⟨c, hcm, rfl⟩ := List.mem_map.1 he
        exact hc c (List.mem_range.1 hcm))
    have hli : ∀ j, B.look (B.insert bs bi b) j = if j = bi then some b else B.look bs j := fun j => L.look_insert bs bi j b hI hok hlook
    obtain ⟨bs', y1, y2, y3, y4, y5⟩ := insertBundles_spec L S l (B.insert bs bi b) hnd.2 (L.inv_insert bs bi b hI hok)
      (fun bj hbj => ⟨by rw [L.ok_insert]; exact (hl bj (List.mem_cons_of_mem _ hbj)).1,
        by rw [hli, if_neg (fun (e : bj = bi) => hnd.1 (e ▸ hbj))]; exact (hl bj (List.mem_cons_of_mem _ hbj)).2.1, (hl bj (List.mem_cons_of_mem _ hbj)).2.2⟩)
    refine ⟨bs', ?_, y2, ?_, ?_, ?_⟩
    · rw [insertBundles, x1]
      simp only
      rw [if_pos (by rw [hok, hget]; rfl)]; exact y1
    · intro bj; rw [y3, L.ok_insert]
    · intro bj hbj
      rw [List.mem_cons, not_or] at hbj
      rw [y4 bj hbj.2, hli, if_neg hbj.1]
    · intro bj hbj
      rcases List.mem_cons.1 hbj with rfl | hbj
      · refine ⟨b, by rw [y4 _ hnd.1, hli, if_pos rfl], x2, ?_⟩
        intro c
        split
        · rename_i h
          exact x3 (c, generateIndex bj c) (by rw [St.applyIndices_list]; exact List.mem_map.2 ⟨c, List.mem_range.2 h, rfl⟩)
        · rename_i h
          rw [x4 c]
          · rfl
          · rw [St.applyIndices_list, List.map_map]
            intro hm
            obtain ⟨c', hc', e⟩ := List.mem_map.1 hm
            have : c' = c := e
            rw [this] at hc'
            exact h (List.mem_range.1 hc')
      · exact y5 bj hbj

/-- **Rebuilding a map** from arbitrary records and bundle indices that the new storages cover. -/
theorem rebuild_spec (L : B.Lawful) (freshS : Nat → B.Store Nat) (freshB : B.Store Bundle) (recs : Nat → List (Idx d × D)) (indices : List (Idx d)) (minB maxB : Idx d)
    (junk : Nat → D) (hF : ∀ c, L.Inv (freshS c)) (hE : ∀ c k, B.look (freshS c) k = none) (hFB : L.Inv freshB) (hEB : ∀ bi, B.look freshB bi = none)
    (hr : ∀ c, c < 2 ^ d → ((recs c).map Prod.fst).Nodup ∧ ∀ e ∈ recs c, B.ok (freshS c) e.1 = true) (hnd : indices.Nodup)
    (hi : ∀ bi ∈ indices, B.ok freshB bi = true ∧ ∀ c, c < 2 ^ d → B.ok (freshS c) (generateIndex bi c) = true) :
    ∃ st : St B D, rebuild freshS freshB recs indices minB maxB junk = some st ∧ Loaded L st.heap st.next st.storage ∧ L.Inv st.bundles ∧
      st.minB = minB ∧ st.maxB = maxB ∧ (∀ bi, B.ok st.bundles bi = B.ok freshB bi) ∧ (∀ c k, B.ok (st.storage c) k = B.ok (freshS c) k) ∧
      (∀ c, c < 2 ^ d → ∀ k x, st.content c k = some x ↔ (k, x) ∈ recs c) ∧ (∀ c, ¬ c < 2 ^ d → ∀ k, st.content c k = none) ∧
      (∀ bi, bi ∉ indices → st.bundle bi = none) ∧
      ∀ bi ∈ indices, ∃ b, st.bundle bi = some b ∧ b.expand = true ∧ ∀ c, b.data c = if c < 2 ^ d then st.dist c (generateIndex bi c) else none := by
  obtain ⟨h', n', S', x1, x2, _, _, x5, x6⟩ := insertStorages_spec L freshS recs hF hE (twoPow d) 0 junk 0 freshS
    ⟨hF, fun c k a hk => (by rw [hE] at hk; cases hk), fun c k c' k' a hk => (by rw [hE] at hk; cases hk)⟩
    (fun j _ hj => hr j (by rw [Nat.zero_add, twoPow_eq] at hj; exact hj))
  rw [Nat.zero_add, twoPow_eq] at x5 x6
  have hok : ∀ c k, B.ok (S' c) k = B.ok (freshS c) k := by
    intro c k
    by_cases hc : c < 2 ^ d
    · exact (x6 c (Nat.zero_le _) hc).1 k
    · rw [x5 c (fun h => hc h.2)]
  obtain ⟨bs, y1, y2, y3, y4, y5⟩ := insertBundles_spec L S' indices freshB hnd hFB
    (fun bi hb => ⟨(hi bi hb).1, hEB bi, fun c hc => by rw [hok]; exact (hi bi hb).2 c hc⟩)
  refine ⟨{ heap := h', next := n', storage := S', bundles := bs, minB := minB, maxB := maxB }, ?_, x2, y2, rfl, rfl, y3, hok, ?_, ?_, ?_, ?_⟩
  · rw [rebuild, x1]
    simp only
    rw [y1]
  · intro c hc k x
    exact (x6 c (Nat.zero_le _) hc).2 k x
  · intro c hc k
    show (B.look (S' c) k).map h' = none
    rw [x5 c (fun h => hc h.2), hE]; rfl
  · intro bi hb
    show B.look bs bi = none
    rw [y4 bi hb, hEB]
  · intro bi hb
    exact y5 bi hb

end
end Ndt
