import Verif.Mappers.PerKeyHighRank
import Verif.Mappers.PerKeyBucketsProps
import Verif.Mappers.PerKeyScalingProps

/-!
# C74 fails for per-key z-scores of instances of rank two and more

The property would be that the result has the shape of `x` and that every value is standardized with the data of its
key.  It holds for no batch: `scale_to_z_score_per_key` fails, or gives a tensor of another shape, or leaves the last
instance as it is.
-/

namespace TFT.Scaling

open _root_.TFT.Spec (mean variance finite)

/-! ## Lemmas -/

theorem InBounds.length : (shape idx : List Nat) → InBounds shape idx → idx.length = shape.length
  | [], [], _ => rfl
  | _ :: ds, _ :: is, h => by simp [InBounds.length ds is h.2]
  | [], _ :: _, h => h.elim
  | _ :: _, [], h => h.elim

theorem zipWith_inBounds : (shape idx : List Nat) → InBounds shape idx →
    List.zipWith (fun d i => if d = 1 then 0 else i) shape idx = idx
  | [], [], _ => rfl
  | d :: ds, i :: is, h => by
    rw [List.zipWith_cons_cons, zipWith_inBounds ds is h.2]
    obtain ⟨h1, -⟩ := h
    split_ifs with hd
    · congr 1
      omega
    · rfl
  | [], _ :: _, h => h.elim
  | _ :: _, [], h => h.elim

theorem readIndex_inBounds (shape idx : List Nat) (h : InBounds shape idx) : readIndex shape idx = idx := by
  unfold readIndex
  rw [h.length, Nat.sub_self, List.drop_zero]
  exact zipWith_inBounds shape idx h

theorem broadcastDims_length : (a b : List Nat) → (c : List Nat) → broadcastDims a b = .ok c →
    c.length = min a.length b.length
  | [], _, c, h => by cases h; simp
  | _ :: _, [], c, h => by cases h; simp
  | a :: as, b :: bs, c, h => by
    unfold broadcastDims at h
    cases h1 : broadcastDim a b with
    | error e => rw [h1] at h; cases h
    | ok d =>
      rw [h1] at h
      cases h2 : broadcastDims as bs with
      | error e => simp [h2, bind, Except.bind] at h
      | ok ds =>
        simp only [h2, bind, Except.bind, Except.ok.injEq] at h
        subst h
        simp only [List.length_cons, broadcastDims_length as bs ds h2]
        omega

theorem broadcastDims_self : (a : List Nat) → broadcastDims a a = .ok a
  | [] => rfl
  | a :: as => by
    unfold broadcastDims
    rw [broadcastDims_self as]
    simp [broadcastDim, bind, Except.bind]

theorem padShape_length (r : Nat) (s : List Nat) : (padShape r s).length = max r s.length := by
  unfold padShape
  simp
  omega

theorem zip_rank {α β γ : Type} (f : α → β → γ) (a : Dense α) (b : Dense β) (c : Dense γ)
    (h : a.zip f b = .ok c) : c.shape.length = max a.shape.length b.shape.length := by
  unfold Dense.zip at h
  simp only [bind, Except.bind] at h
  cases h1 : broadcastDims (padShape (max a.shape.length b.shape.length) a.shape)
      (padShape (max a.shape.length b.shape.length) b.shape) with
  | error e => rw [h1] at h; cases h
  | ok s =>
    rw [h1] at h
    simp only [Except.ok.injEq] at h
    subst h
    rw [broadcastDims_length _ _ _ h1, padShape_length, padShape_length]
    omega

theorem zip_same_rank {α β γ : Type} (f : α → β → γ) (a : Dense α) (b : Dense β) (c : Dense γ)
    (hr : a.shape.length = b.shape.length) (h : a.zip f b = .ok c) :
    broadcastDims a.shape b.shape = .ok c.shape ∧
      ∀ idx, c.at_ idx = f (a.at_ (readIndex a.shape idx)) (b.at_ (readIndex b.shape idx)) := by
  unfold Dense.zip at h
  simp only [bind, Except.bind] at h
  have ha : padShape (max a.shape.length b.shape.length) a.shape = a.shape := by
    unfold padShape
    rw [hr, Nat.max_self, Nat.sub_self]
    rfl
  have hb : padShape (max a.shape.length b.shape.length) b.shape = b.shape := by
    unfold padShape
    rw [hr, Nat.max_self, Nat.sub_self]
    rfl
  rw [ha, hb] at h
  cases h1 : broadcastDims a.shape b.shape with
  | error e => rw [h1] at h; cases h
  | ok s =>
    rw [h1] at h
    simp only [Except.ok.injEq] at h
    subst h
    exact ⟨rfl, fun idx => rfl⟩

theorem zip_same_shape {α β γ : Type} (f : α → β → γ) (a : Dense α) (b : Dense β) (c : Dense γ)
    (hr : a.shape = b.shape) (h : a.zip f b = .ok c) :
    c.shape = a.shape ∧
      ∀ idx, c.at_ idx = f (a.at_ (readIndex a.shape idx)) (b.at_ (readIndex a.shape idx)) := by
  obtain ⟨h1, h2⟩ := zip_same_rank f a b c (by rw [hr]) h
  rw [← hr, broadcastDims_self] at h1
  simp only [Except.ok.injEq] at h1
  refine ⟨h1.symm, fun idx => ?_⟩
  rw [h2 idx, hr]

theorem zScore_zero (v : Option ℝ) : v.bind (zScore (some 0) (some 0)) = v := by
  cases v with
  | none => rfl
  | some v => simp [zScore]

section perKey

variable {K : Type} [DecidableEq K]

/-- What looking up one statistic gives: its shape, and zero in the last row. -/
theorem mapStatHigh_spec (tf1 : Bool) (rest : List Nat) (hrest : rest ≠ []) (vocab : List K)
    (stat : List (List Num)) (keys : List K) (t : Dense Num) (h : mapStatHigh tf1 rest vocab stat keys = .ok t) :
    stat ≠ [] ∧ t.shape = (stat.length + 1) :: rest.dropLast ++ [keys.length] ++ List.replicate (missingDims tf1 rest) 1 ∧
      ∀ is, rest.length < is.length + 1 → t.at_ (stat.length :: is) = some 0 := by
  unfold mapStatHigh at h
  split_ifs at h with hs
  refine ⟨hs, ?_⟩
  simp only [bind, Except.bind, Dense.gatherLast] at h
  split_ifs at h with hi
  · simp only [Except.ok.injEq] at h
    subst h
    have hdl : ((stat.length + 1) :: rest).dropLast = (stat.length + 1) :: rest.dropLast := by
      cases rest with
      | nil => exact absurd rfl hrest
      | cons a l => rfl
    refine ⟨by simp only [Dense.expandLast, statTensor, hdl, keyIndices, List.length_map], fun is his => ?_⟩
    simp only [Dense.expandLast, statTensor, hdl]
    have hlen : ((stat.length + 1) :: rest.dropLast ++ [(keyIndices vocab keys).length]).length = rest.length + 1 := by
      have := List.length_pos_iff.2 hrest
      simp
      omega
    rw [hlen, List.take_succ_cons]
    have hne : is.take rest.length ≠ [] := by
      have := List.length_pos_iff.2 hrest
      intro hc
      have h0 := congrArg List.length hc
      simp at h0
      rcases h0 with h0 | h0
      · exact hrest h0
      · subst h0
        simp at his
        exact hrest his
    cases htk : is.take rest.length with
    | nil => exact absurd htk hne
    | cons a l => simp [List.dropLast]

/-! ## Property C74, the case of rank two and more -/

/-- For no batch of instances of rank two or more does `scale_to_z_score_per_key` (not elementwise) give scaled values:
if it does not fail, its result has another shape than `x`, or the last instance is left as it is. -/
theorem high_rank_never_scaled (tf1 : Bool) (d : Nat) (rest : List Nat) (hrest : rest ≠ []) (stats : KeyStats K Num)
    (x : Dense (Option ℝ)) (keys : List K) (hx : x.shape = keys.length :: d :: rest) (y : Dense (Option ℝ))
    (h : zScoreBatchHigh tf1 rest stats x keys = .ok y) :
    y.shape ≠ x.shape ∨
      ∀ is, InBounds (d :: rest) is → y.at_ ((keys.length - 1) :: is) = x.at_ ((keys.length - 1) :: is) := by
  unfold zScoreBatchHigh at h
  simp only [bind, Except.bind] at h
  cases hm : mapStatHigh tf1 rest stats.keys stats.first keys with
  | error e => rw [hm] at h; cases h
  | ok m =>
    rw [hm] at h
    simp only at h
    cases hv : mapStatHigh tf1 rest stats.keys stats.second keys with
    | error e => rw [hv] at h; cases h
    | ok v =>
      rw [hv] at h
      simp only at h
      cases hb : m.zip (fun m v => (m, v)) v with
      | error e => rw [hb] at h; cases h
      | ok both =>
        rw [hb] at h
        simp only at h
        obtain ⟨hm0, hms, hmz⟩ := mapStatHigh_spec tf1 rest hrest _ _ _ _ hm
        obtain ⟨hv0, hvs, hvz⟩ := mapStatHigh_spec tf1 rest hrest _ _ _ _ hv
        have hrl := List.length_pos_iff.2 hrest
        have hmr : m.shape.length = rest.length + 1 + missingDims tf1 rest := by
          rw [hms]; simp; omega
        have hvr : v.shape.length = rest.length + 1 + missingDims tf1 rest := by
          rw [hvs]; simp; omega
        have hbr := zip_rank _ _ _ _ hb
        rw [hmr, hvr, Nat.max_self] at hbr
        by_cases hyx : y.shape = x.shape
        · right
          intro is his
          have hyr := zip_rank _ _ _ _ h
          rw [hyx, hbr, hx] at hyr
          simp only [List.length_cons] at hyr
          cases tf1 with
          | true =>
            exfalso
            simp only [missingDims, if_true] at hyr
            omega
          | false =>
            simp only [missingDims, Bool.false_eq_true, if_false] at hbr hms hvs
            have e1 : rest.length + 2 - (rest.length + 1) = 1 := by omega
            rw [e1] at hbr hms hvs
            obtain ⟨hbs, hbat⟩ := zip_same_rank _ _ _ _ (by rw [hmr, hvr]) hb
            obtain ⟨hys, hyat⟩ := zip_same_rank _ _ _ _ (by rw [hx, hbr]; rfl) h
            -- the first dimensions
            have hfirst : ∃ tl, both.shape = (max (stats.first.length) (stats.second.length) + 1) :: tl ∧
                (stats.first.length = stats.second.length) := by
              rw [hms, hvs] at hbs
              simp only [List.cons_append, broadcastDims, broadcastDim, bind, Except.bind] at hbs
              have p1 := List.length_pos_iff.2 hm0
              have p2 := List.length_pos_iff.2 hv0
              by_cases heq : stats.first.length = stats.second.length
              · rw [if_pos (by omega)] at hbs
                simp only at hbs
                cases hq : broadcastDims (rest.dropLast ++ [keys.length] ++ List.replicate 1 1)
                    (rest.dropLast ++ [keys.length] ++ List.replicate 1 1) with
                | error e => rw [hq] at hbs; cases hbs
                | ok tl =>
                  rw [hq] at hbs
                  simp only [Except.ok.injEq] at hbs
                  exact ⟨tl, by rw [← hbs, heq, Nat.max_self], heq⟩
              · rw [if_neg (by omega), if_neg (by omega), if_neg (by omega)] at hbs
                cases hbs
            obtain ⟨tl, hbtl, heq⟩ := hfirst
            rw [heq, Nat.max_self] at hbtl
            have p2 := List.length_pos_iff.2 hv0
            have hn : keys.length = stats.second.length + 1 := by
              rw [hyx, hx, hbtl] at hys
              simp only [broadcastDims, broadcastDim, bind, Except.bind] at hys
              split_ifs at hys with g1 g2 g3
              · exact g1
              · simp only at hys
                cases hq : broadcastDims (d :: rest) tl with
                | error e => rw [hq] at hys; cases hys
                | ok c => rw [hq] at hys; simp only [Except.ok.injEq, List.cons.injEq] at hys; omega
              · omega
            have hidx : InBounds x.shape ((keys.length - 1) :: is) := by
              rw [hx]
              exact ⟨by omega, his⟩
            have hlen := his.length
            simp only [List.length_cons] at hlen
            have htl : tl.length = rest.length + 1 := by
              have := hbr
              rw [hbtl] at this
              simpa using this
            have hcons : ∀ (s : Nat) (ss ii : List Nat), s ≠ 1 → ii.length = ss.length →
                readIndex (s :: ss) ((keys.length - 1) :: ii)
                  = (keys.length - 1) :: List.zipWith (fun d i => if d = 1 then 0 else i) ss ii := by
              intro s ss ii hs1 hl
              unfold readIndex
              simp only [List.length_cons, hl, Nat.sub_self, List.drop_zero, List.zipWith_cons_cons, if_neg hs1]
            rw [hyat, readIndex_inBounds _ _ hidx, hbtl,
              hcons _ _ _ (by omega) (by rw [hlen, htl]), hbat, hms, hvs]
            simp only [List.cons_append]
            rw [hcons _ _ _ (by omega) (by simp; omega), hcons _ _ _ (by omega) (by simp; omega)]
            have hz1 := hmz (List.zipWith (fun d i => if d = 1 then 0 else i)
              (rest.dropLast ++ ([keys.length] ++ List.replicate 1 1))
              (List.zipWith (fun d i => if d = 1 then 0 else i) tl is)) (by simp; omega)
            have hz2 := hvz (List.zipWith (fun d i => if d = 1 then 0 else i)
              (rest.dropLast ++ ([keys.length] ++ List.replicate 1 1))
              (List.zipWith (fun d i => if d = 1 then 0 else i) tl is)) (by simp; omega)
            rw [heq] at hz1
            have hkl : keys.length - 1 = stats.second.length := by omega
            simp only [List.append_assoc] at hz1 hz2 ⊢
            rw [hkl, hz1, hz2]
            exact zScore_zero _
        · exact .inl hyx

/-- With TF2 behaviour only batches of one instance, or of one more than there are keys, do not fail. -/
theorem high_rank_batch_sizes (d : Nat) (rest : List Nat) (hrest : rest ≠ []) (stats : KeyStats K Num)
    (x : Dense (Option ℝ)) (keys : List K) (hx : x.shape = keys.length :: d :: rest) (y : Dense (Option ℝ))
    (h : zScoreBatchHigh false rest stats x keys = .ok y) :
    keys.length = 1 ∨ keys.length = stats.first.length + 1 := by
  unfold zScoreBatchHigh at h
  simp only [bind, Except.bind] at h
  cases hm : mapStatHigh false rest stats.keys stats.first keys with
  | error e => rw [hm] at h; cases h
  | ok m =>
    rw [hm] at h
    simp only at h
    cases hv : mapStatHigh false rest stats.keys stats.second keys with
    | error e => rw [hv] at h; cases h
    | ok v =>
      rw [hv] at h
      simp only at h
      cases hb : m.zip (fun m v => (m, v)) v with
      | error e => rw [hb] at h; cases h
      | ok both =>
        rw [hb] at h
        simp only at h
        obtain ⟨hm0, hms, -⟩ := mapStatHigh_spec false rest hrest _ _ _ _ hm
        obtain ⟨hv0, hvs, -⟩ := mapStatHigh_spec false rest hrest _ _ _ _ hv
        have hrl := List.length_pos_iff.2 hrest
        have p1 := List.length_pos_iff.2 hm0
        have p2 := List.length_pos_iff.2 hv0
        simp only [missingDims, Bool.false_eq_true, if_false] at hms hvs
        rw [show rest.length + 2 - (rest.length + 1) = 1 by omega] at hms hvs
        obtain ⟨hbs, -⟩ := zip_same_rank _ _ _ _ (by rw [hms, hvs]; simp) hb
        have hbr := zip_rank _ _ _ _ hb
        obtain ⟨hys, -⟩ := zip_same_rank _ _ _ _ (by
          rw [hx, hbr, hms, hvs]
          simp
          omega) h
        rw [hms, hvs] at hbs
        rw [hx] at hys
        cases hbsh : both.shape with
        | nil => rw [hbsh, hms] at hbr; simp at hbr; omega
        | cons b0 tl =>
          rw [hbsh] at hbs hys
          simp only [List.cons_append, broadcastDims, broadcastDim, bind, Except.bind] at hbs hys
          have hb0 : b0 = stats.first.length + 1 := by
            split_ifs at hbs with g1 g2 g3
            · simp only at hbs
              split at hbs
              · cases hbs
              · simp only [Except.ok.injEq, List.cons.injEq] at hbs
                exact hbs.1.symm
            · omega
            · omega
          split_ifs at hys with g1 g2 g3
          · exact .inr (by omega)
          · exact .inl g2
          · omega

/-- A batch fails if it has a key whose position in the list of keys (the number of keys, if it was not seen) is not
below the last dimension of `x`. -/
theorem high_rank_keys_out_of_range (tf1 : Bool) (rest : List Nat) (hrest : rest ≠ []) (stats : KeyStats K Num)
    (x : Dense (Option ℝ)) (keys : List K) (hnd : stats.keys.Nodup) (k : K) (hk : k ∈ keys)
    (hout : rest.getLast hrest ≤ stats.keys.idxOf k) :
    ∃ e, zScoreBatchHigh tf1 rest stats x keys = .error e := by
  have hidx : rest.getLast hrest ≤
      (if 0 ≤ Buckets.lookupKey k stats.keys then (Buckets.lookupKey k stats.keys).toNat else stats.keys.length) := by
    rw [Buckets.lookupKey_eq k _ hnd]
    by_cases hm : k ∈ stats.keys
    · simpa [hm] using hout
    · simpa [hm, List.idxOf_eq_length hm] using hout
  have hmap : ∃ e, mapStatHigh tf1 rest stats.keys stats.first keys = .error e := by
    unfold mapStatHigh
    split_ifs
    · exact ⟨_, rfl⟩
    · unfold Dense.gatherLast
      rw [if_neg]
      · exact ⟨_, rfl⟩
      · intro hall
        have := List.all_eq_true.1 hall _ (List.mem_map.2 ⟨k, hk, rfl⟩)
        simp only [decide_eq_true_eq] at this
        have hl : (statTensor rest stats.first).shape.getLastD 0 = rest.getLast hrest := by
          show ((stats.first.length + 1) :: rest).getLastD 0 = _
          rw [List.getLastD_eq_getLast?, List.getLast?_cons, List.getLast?_eq_some_getLast hrest]
          rfl
        rw [hl] at this
        omega
  obtain ⟨e, he⟩ := hmap
  exact ⟨e, by unfold zScoreBatchHigh; rw [he]; rfl⟩

end perKey

/-! ## A case -/

namespace HighRankCase

deriving instance DecidableEq for KeyStats

/-- Two instances of shape `[2, 2]` with one key. -/
def rows : List (List Elem) := [[some 1, some 3, some 1, some 3], [some 1, some 3, some 1, some 3]]

def keys : List Nat := [7, 7]

/-- The same as a tensor. -/
noncomputable def x : Dense (Option ℝ) := ⟨[2, 2, 2], fun idx => some (if idx.getLastD 0 = 0 then 1 else 3)⟩

/-- The statistics: those of the last position, not of the key. -/
def stats : KeyStats Nat Num := ⟨[7], [[some 1, some 3]], [[some 0, some 0]]⟩

/-- What the batch gives to the combiner. -/
def pairs : List (Nat × MVAcc) := [(7, [⟨4, some 1, some 0, some 0⟩, ⟨4, some 3, some 0, some 0⟩])]

/-- The analysis of two equal instances with values 1 and 3, and what the transform function then gives for them: the
first instance is shifted by the mean of its first column, the second one is not changed. The key's data have mean 2
and variance 1, so that 3 should become 1. -/
theorem high_rank_wrong_values :
    meanVarBatchHigh [2] rows keys = .ok pairs ∧
    (∃ (r1 : KeyRun Nat MVAcc) (r2 : KeyRun Nat Nat), ValidKeyRun r1 pairs ∧ ValidKeyMerge r2 r1.keys ∧
      meanVarPerKey true [2, 2] [r1] r2 = .ok stats) ∧
    (∃ y, zScoreBatchHigh false [2] stats x keys = .ok y ∧ y.shape = [2, 2, 2] ∧
      y.at_ [0, 0, 0] = some 0 ∧ y.at_ [0, 0, 1] = some 2 ∧ y.at_ [1, 0, 0] = some 1 ∧ y.at_ [1, 0, 1] = some 3) ∧
    (∀ g, IsStandardization [1, 3, 1, 3, 1, 3, 1, 3] g → g 1 = -1 ∧ g 3 = 1) := by
  refine ⟨by decide +kernel, ?_, ?_, ?_⟩
  · refine ⟨⟨[7], fun _ => .add .create [⟨4, some 1, some 0, some 0⟩, ⟨4, some 3, some 0, some 0⟩]⟩,
      ⟨[7], fun _ => .add .create 0⟩, ?_, ?_, by decide +kernel⟩
    · refine ⟨by decide, fun k => by simp [pairs], fun k _ => ?_, fun k hk => ?_⟩
      · exact .add .create
      · simp only [List.mem_singleton] at hk
        subst hk
        exact List.Perm.refl _
    · refine ⟨by decide, fun k => by simp, fun k _ => ?_, fun k hk => ?_⟩
      · exact .add .create
      · simp only [List.mem_singleton] at hk
        subst hk
        exact List.Perm.refl _
  · have hmap : ∀ s : List (List Num), s = stats.first ∨ s = stats.second →
        mapStatHigh false [2] stats.keys s keys
          = .ok (((⟨[2, 2], fun idx => (statTensor [2] s).at_ (idx.dropLast ++ [[0, 0].getD (idx.getLastD 0) 0])⟩ :
            Dense Num)).expandLast 1) := by
      intro s hs
      rcases hs with rfl | rfl <;> rfl
    have hz : ∀ v : ℝ, zScore (some 1) (some 0) v = some (v - 1) ∧ zScore (some 0) (some 0) v = some v := by
      intro v
      simp [zScore]
    have hrun : ∃ y, zScoreBatchHigh false [2] stats x keys = .ok y ∧ y.shape = [2, 2, 2] ∧
        ∀ i j l, y.at_ [i, j, l] = (x.at_ [i, j, l]).bind (zScore
          ((statTensor [2] stats.first).at_ [i, [0, 0].getD j 0])
          ((statTensor [2] stats.second).at_ [i, [0, 0].getD j 0])) := by
      unfold zScoreBatchHigh
      rw [hmap _ (.inl rfl), hmap _ (.inr rfl)]
      exact ⟨_, rfl, rfl, fun i j l => rfl⟩
    obtain ⟨y, h1, h2, h3⟩ := hrun
    refine ⟨y, h1, h2, ?_, ?_, ?_, ?_⟩
    · rw [h3]
      exact (hz 1).1.trans (by norm_num)
    · rw [h3]
      exact (hz 3).1.trans (by norm_num)
    · rw [h3]
      exact (hz 1).2
    · rw [h3]
      exact (hz 3).2
  · intro g hg
    obtain ⟨a, b, ha, hab⟩ := hg.affine
    have hmean := hg.mean
    have hvar := hg.variance ⟨1, by simp, 3, by simp, by norm_num⟩
    unfold varianceR at hvar
    rw [hmean] at hvar
    simp only [List.map_cons, List.map_nil, hab, meanR, List.sum_cons, List.sum_nil, List.length_cons,
      List.length_nil] at hmean hvar
    push_cast at hmean hvar
    have hb : b = -2 * a := by
      field_simp at hmean
      linarith
    subst hb
    have ha1 : a = 1 := by
      have : a ^ 2 = 1 := by
        field_simp at hvar
        nlinarith
      nlinarith
    subst ha1
    rw [hab, hab]
    norm_num

/-- Not vacuous: with three keys, of which the last one is used, a batch of width 2 fails. -/
example : ([2] : List Nat) ≠ [] ∧ ([7, 8, 9] : List Nat).Nodup ∧ 9 ∈ [9, 7] ∧ [2].getLast (by simp) ≤ [7, 8, 9].idxOf 9 := by
  decide

end HighRankCase

end TFT.Scaling
