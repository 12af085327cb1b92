import Verif.Proofs.Parce
import Verif.Proofs.GroupColumns
import Verif.Spec.Shuffle

/-!
# Columns in another order: lemmas for BottomUpParceLiNGAM (C221)
-/
set_option linter.unusedSectionVars false
set_option autoImplicit false
namespace Verif.Parce
open GroupData (PoReordered filter_columns others_columns predictors_reordered error_kind)

variable {𝕜 : Type} [Field 𝕜] [LinearOrder 𝕜] {F : Type} [Field F]

/-- The configuration `c'` is `c` for the columns in the order `π`: the prior knowledge is about the same variables, and every value
computed from the data is the same. -/
structure FollowsColumns (n : Nat) (π : Nat → Nat) (c c' : Cfg 𝕜) : Prop where
  pk : c'.pk = c.pk.map (fun pk i j => pk (π i) (π j))
  fc : c'.fc = c.fc
  alpha : c'.alpha = c.alpha
  indCorr : c'.indCorr = c.indCorr
  single : ∀ V V' j, V.Sublist (List.range n) → V'.Sublist (List.range n) → (V'.map π).Perm V → j ∈ V' → c'.single V' j = c.single V (π j)
  hsic : ∀ V V' j, V.Sublist (List.range n) → V'.Sublist (List.range n) → (V'.map π).Perm V → j ∈ V' → c'.hsic V' j = c.hsic V (π j)
  fcorr : ∀ V V' j, V.Sublist (List.range n) → V'.Sublist (List.range n) → (V'.map π).Perm V → j ∈ V' → c'.fcorr V' j = c.fcorr V (π j)

/-- `a` has to precede `b` by the prior knowledge. -/
def Required (n : Nat) (c : Cfg 𝕜) (a b : Nat) : Prop := ∃ pk, c.pk = some pk ∧ MustPrecede n pk a b

/-- No two variables that can be candidates together (none has to precede the other) have equal values of the criterion that is compared. -/
def NoTies (n : Nat) (c : Cfg 𝕜) : Prop :=
  ∀ V, V.Sublist (List.range n) → (∀ i ∈ V, ∀ j ∈ V, ¬ Required n c i j) → ∀ i ∈ V, ∀ j ∈ V, i ≠ j →
    (c.fc = true → c.fcorr V i ≠ c.fcorr V j) ∧ (c.fc = false → (c.hsic V i).1 ≠ (c.hsic V j).1)

theorem NoTies.cost {n : Nat} {c : Cfg 𝕜} (h : NoTies n c) {V : List Nat} (hV : V.Sublist (List.range n))
    (hR : ∀ i ∈ V, ∀ j ∈ V, ¬ Required n c i j) {i j : Nat} (hi : i ∈ V) (hj : j ∈ V) (e : cost c V i = cost c V j) : i = j := by
  by_contra hne
  obtain ⟨h1, h2⟩ := h V hV hR i hi j hj hne
  unfold Parce.cost at e
  cases hf : c.fc with
  | true =>
    rw [hf] at e
    simp only [if_true] at e
    exact h1 hf (WithTop.coe_injective e)
  | false =>
    rw [hf] at e
    simp only [Bool.false_eq_true, if_false] at e
    exact h2 hf e

variable {n : Nat} {π : Nat → Nat} {c c' : Cfg 𝕜}

theorem lt_of_rearranges (hπ : Rearranges n π) {i : Nat} (hi : i < n) : π i < n :=
  List.mem_range.1 (hπ.mem_iff.1 (List.mem_map_of_mem (List.mem_range.2 hi)))

theorem inj_of_rearranges (hπ : Rearranges n π) {i j : Nat} (hi : i < n) (hj : j < n) (h : π i = π j) : i = j :=
  List.inj_on_of_nodup_map (hπ.nodup_iff.2 List.nodup_range) (List.mem_range.2 hi) (List.mem_range.2 hj) h

theorem surj_of_rearranges (hπ : Rearranges n π) {i : Nat} (hi : i < n) : ∃ j, j < n ∧ π j = i := by
  obtain ⟨j, hj, e⟩ := List.mem_map.1 (hπ.mem_iff.2 (List.mem_range.2 hi))
  exact ⟨j, List.mem_range.1 hj, e⟩

theorem cost_reordered (hF : FollowsColumns n π c c') {V V' : List Nat} (hV : V.Sublist (List.range n)) (hV' : V'.Sublist (List.range n))
    (hp : (V'.map π).Perm V) {j : Nat} (hj : j ∈ V') : cost c' V' j = cost c V (π j) ∧ eval c' V' j = eval c V (π j) := by
  unfold cost eval
  rw [hF.fc, hF.hsic V V' j hV hV' hp hj, hF.fcorr V V' j hV hV' hp hj]
  exact ⟨rfl, rfl⟩

theorem sources (hπ : Rearranges n π) {po po' : List (Nat × Nat)} (h : PoReordered n π po po') {a : Nat} (ha : a < n) :
    (∀ b, (a, b) ∉ po') ↔ ∀ b, (π a, b) ∉ po := by
  obtain ⟨h1, h2, h3⟩ := h
  constructor
  · intro hm b hb
    obtain ⟨b', hb', rfl⟩ := surj_of_rearranges hπ (h1 _ hb).2
    exact hm b' ((h3 a b' ha hb').2 hb)
  · intro hm b hb
    exact hm (π b) ((h3 a b ha (h2 _ hb).2).1 hb)

theorem drop_sinks (hπ : Rearranges n π) {po po' : List (Nat × Nat)} (h : PoReordered n π po po') {m : Nat} (hm : m < n) :
    PoReordered n π (po.filter (fun p => decide (p.2 ≠ π m))) (po'.filter (fun p => decide (p.2 ≠ m))) := by
  obtain ⟨h1, h2, h3⟩ := h
  refine ⟨fun p hp => h1 p (List.mem_filter.1 hp).1, fun p hp => h2 p (List.mem_filter.1 hp).1, fun a b ha hb => ?_⟩
  rw [List.mem_filter, List.mem_filter, h3 a b ha hb]
  have : b ≠ m ↔ π b ≠ π m := ⟨fun h e => h (inj_of_rearranges hπ hb hm e), fun h e => h (by rw [e])⟩
  simp only [this]

theorem candidates_reordered (hπ : Rearranges n π) (hF : FollowsColumns n π c c') {U U' : List Nat} (hU' : U'.Sublist (List.range n))
    (hp : (U'.map π).Perm U) {po po' : List (Nat × Nat)} (hpo : PoReordered n π po po') :
    ((searchCandidate c' po' U').map π).Perm (searchCandidate c po U) := by
  cases hpk : c.pk with
  | none =>
    have hpk' : c'.pk = none := by rw [hF.pk, hpk]; rfl
    unfold searchCandidate
    rw [hpk, hpk']
    exact hp
  | some pk =>
    have hpk' : c'.pk = some (fun i j => pk (π i) (π j)) := by rw [hF.pk, hpk]; rfl
    have hlt : ∀ i ∈ U', i < n := fun i hi => List.mem_range.1 (hU'.subset hi)
    have hinj : ∀ i ∈ U', ∀ j ∈ U', π i = π j → i = j := fun i hi j hj => inj_of_rearranges hπ (hlt i hi) (hlt j hj)
    have hsub := (searchCandidate_sublist c' po' U').subset
    have hn' : U'.Nodup := hU'.nodup List.nodup_range
    have hn : U.Nodup := hp.nodup_iff.1 (hn'.map_on fun i hi j hj => hinj i hi j hj)
    refine (List.perm_ext_iff_of_nodup ?_ ((searchCandidate_sublist c po U).nodup hn)).2 fun i => ?_
    · exact ((searchCandidate_sublist c' po' U').nodup hn').map_on fun i hi j hj => hinj i (hsub hi) j (hsub hj)
    · rw [mem_searchCandidate hpk, List.mem_map]
      constructor
      · rintro ⟨a, ha, rfl⟩
        obtain ⟨ha1, ha2⟩ := (mem_searchCandidate hpk').1 ha
        exact ⟨hp.mem_iff.1 (List.mem_map_of_mem ha1), (sources hπ hpo (hlt a ha1)).1 ha2⟩
      · rintro ⟨h1, h2⟩
        obtain ⟨a, ha, rfl⟩ := List.mem_map.1 (hp.mem_iff.2 h1)
        exact ⟨a, (mem_searchCandidate hpk').2 ⟨ha, (sources hπ hpo (hlt a ha)).2 h2⟩, rfl⟩

/-- One choice in both orders. -/
theorem findExo_reordered (hF : FollowsColumns n π c c') (hT : NoTies n c) {U U' V V' : List Nat} (hU : U.Sublist (List.range n))
    (hU' : U'.Sublist (List.range n)) (hp : (U'.map π).Perm U) (hV : V.Sublist U) (hV' : V'.Sublist U') (hq : (V'.map π).Perm V)
    (hR : ∀ i ∈ V, ∀ j ∈ V, ¬ Required n c i j) :
    (∃ x e, x ∈ V' ∧ findExo c' V' U' = ([x], e) ∧ findExo c V U = ([π x], e)) ∨ (findExo c' V' U' = ([], ⊤) ∧ findExo c V U = ([], ⊤)) := by
  have hVr := hV.trans hU
  have hVr' := hV'.trans hU'
  have hlen : V'.length = V.length := by simpa using hq.length_eq
  rcases findExo_cases c V U with ⟨x, e, hx, hf, hb⟩ | ⟨hf, hl, hall⟩
  · left
    obtain ⟨x', hx', rfl⟩ := List.mem_map.1 (hq.mem_iff.2 hx)
    refine ⟨x', ((e : 𝕜) : WithTop 𝕜), hx', ?_, hf⟩
    rcases hb with ⟨hV1, rfl⟩ | ⟨hl, rfl, hlt, hmin⟩
    · have hl : V'.length = 1 := by rw [hlen, hV1]; rfl
      obtain ⟨y, rfl⟩ := List.length_eq_one_iff.1 hl
      obtain rfl : x' = y := by simpa using hx'
      rw [← hF.single U U' x' hU hU' hp (hV'.subset hx')]
      rfl
    · obtain ⟨hc1, hc2⟩ := cost_reordered hF hVr hVr' hq hx'
      rcases findExo_cases c' V' U' with ⟨z, e', hz, hf', hb'⟩ | ⟨hf', hl', hall'⟩
      · rcases hb' with ⟨h1, _⟩ | ⟨_, rfl, _, hmin'⟩
        · rw [← hlen, h1] at hl
          simp at hl
        · obtain ⟨hd1, hd2⟩ := cost_reordered hF hVr hVr' hq hz
          have h1 := hmin' x' hx'
          rw [hc1, hd1] at h1
          have hzV : π z ∈ V := hq.mem_iff.1 (List.mem_map_of_mem hz)
          have he := hT.cost hVr hR hzV hx (le_antisymm h1 (hmin _ hzV))
          have hnd : (V'.map π).Nodup := hq.nodup_iff.2 (hVr.nodup List.nodup_range)
          obtain rfl := List.inj_on_of_nodup_map hnd hz hx' he
          rw [hf', hd2]
      · rw [hall' x' hx'] at hc1
        rw [← hc1] at hlt
        exact absurd hlt (lt_irrefl _)
  · right
    rcases V with _ | ⟨a, _ | ⟨b, V⟩⟩
    · obtain rfl : V' = [] := List.length_eq_zero_iff.1 hlen
      exact ⟨rfl, rfl⟩
    · simp at hl
    · have hab := hT.cost hVr hR (i := a) (j := b) (by simp) (by simp) (by rw [hall a (by simp), hall b (by simp)])
      subst hab
      have := hVr.nodup List.nodup_range
      simp at this

/-- The whole search in both orders. -/
theorem search_reordered (hπ : Rearranges n π) (hF : FollowsColumns n π c c') (hT : NoTies n c) (thresh : 𝕜) :
    ∀ (fuel : Nat) (K' U U' : List Nat) (po po' : List (Nat × Nat)), U.Sublist (List.range n) → U'.Sublist (List.range n) →
    (U'.map π).Perm U → PoReordered n π po po' → (∀ a ∈ U, ∀ b ∈ U, Required n c a b → (a, b) ∈ po) → 2 ≤ U.length →
    searchOrder c thresh fuel (K'.map π) U po = (searchOrder c' thresh fuel K' U' po').map (Except.map (List.map π))
  | 0, _, _, _, _, _, _, _, _, _, _, _ => rfl
  | fuel + 1, K', U, U', po, po', hU, hU', hp, hpo, hreq, h2 => by
    have hlen : U'.length = U.length := by simpa using hp.length_eq
    have hrej : ∀ e, isReject c' thresh e = isReject c thresh e := fun e => by
      unfold isReject
      rw [hF.fc, hF.indCorr]
    have hsome : c'.pk.isSome = c.pk.isSome := by rw [hF.pk]; cases c.pk <;> rfl
    have hlt : ∀ i ∈ U', i < n := fun i hi => List.mem_range.1 (hU'.subset hi)
    unfold searchOrder
    simp only
    rw [hsome]
    rcases findExo_reordered hF hT hU hU' hp (searchCandidate_sublist c po U) (searchCandidate_sublist c' po' U')
      (candidates_reordered hπ hF hU' hp hpo) (fun i hi j hj hij => by
        obtain ⟨pk, hpk, _⟩ := id hij
        have hiU := (searchCandidate_sublist c po U).subset hi
        exact ((mem_searchCandidate hpk).1 hi).2 j (hreq i hiU j ((searchCandidate_sublist c po U).subset hj) hij)) with ⟨x, e, hx, hf', hf⟩ | ⟨hf', hf⟩
    · rw [hf, hf', hrej]
      have hxU := (searchCandidate_sublist c' po' U').subset hx
      by_cases hr : isReject c thresh e = true
      · rw [if_pos hr, if_pos hr]
        rfl
      · rw [if_neg hr, if_neg hr]
        simp only [dropEq_single]
        have hpo1 : ∀ (q : List (Nat × Nat)) (y : Nat), (if c.pk.isSome = true then Except.ok (q.filter (fun a => decide (a.2 ≠ y))) else Except.ok q :
            Except Err _) = .ok (if c.pk.isSome = true then q.filter (fun a => decide (a.2 ≠ y)) else q) := fun q y => by split <;> rfl
        rw [hpo1, hpo1]
        simp only
        have hrest := others_columns hp (fun i hi j hj => inj_of_rearranges hπ (hlt i hi) (hlt j hj)) hxU
        have hl2 : (U'.filter (fun i => decide (i ≠ x))).length = (U.filter (fun i => decide (i ≠ π x))).length := by simpa using hrest.length_eq
        rw [hl2]
        split
        · rename_i hl
          have he : (U'.filter (fun i => decide (i ≠ x))).map π = U.filter (fun i => decide (i ≠ π x)) := by
            rw [← hl2] at hl
            generalize U'.filter (fun i => decide (i ≠ x)) = A at *
            rcases A with _ | ⟨a, _ | ⟨b, A⟩⟩
            · exact (List.nil_perm.1 hrest).symm
            · exact (List.singleton_perm.1 hrest)
            · simp at hl
          simp only [Option.map_some, Except.map, List.map_append, List.map_cons, List.map_nil, he]
        · rename_i hl
          have := search_reordered hπ hF hT thresh fuel ([x] ++ K') (U.filter (fun i => decide (i ≠ π x))) (U'.filter (fun i => decide (i ≠ x)))
            (if c.pk.isSome = true then po.filter (fun a => decide (a.2 ≠ π x)) else po)
            (if c.pk.isSome = true then po'.filter (fun a => decide (a.2 ≠ x)) else po')
            (List.filter_sublist.trans hU) (List.filter_sublist.trans hU') hrest (by
              split
              · exact drop_sinks hπ hpo (hlt x hxU)
              · exact hpo) (fun a ha b hb hab => by
              obtain ⟨ha, _⟩ := List.mem_filter.1 ha
              obtain ⟨hb, hbx⟩ := List.mem_filter.1 hb
              have := hreq a ha b hb hab
              split
              · exact List.mem_filter.2 ⟨this, hbx⟩
              · exact this) (by omega)
          rw [← this]
          rfl
    · rw [hf, hf', hrej]
      by_cases hr : isReject c thresh ⊤ = true
      · rw [if_pos hr, if_pos hr]
        rfl
      · rw [if_neg hr, if_neg hr]
        have hd : ∀ W : List Nat, 2 ≤ W.length → dropEq W (fun x => x) [] = .error .broadcast := fun W hW => by
          show (if W.length = 0 then _ else _) = _
          rw [if_neg (by omega)]
        rw [hd U h2, hd U' (by omega)]
        rfl

/-- The requirements list everything required. -/
def PoOk (n : Nat) (c : Cfg 𝕜) (po : List (Nat × Nat)) : Prop := ∀ a b, Required n c a b → (a, b) ∈ po

theorem priorOrders_reordered (hπ : Rearranges n π) (hF : FollowsColumns n π c c') :
    (∀ e, priorOrders c n = .error e → priorOrders c' n = .error e) ∧
    ∀ po, priorOrders c n = .ok po → ∃ po', priorOrders c' n = .ok po' ∧ PoReordered n π po po' ∧ ∀ a b, Required n c a b → (a, b) ∈ po := by
  unfold priorOrders Required
  cases hpk : c.pk with
  | none =>
    have hpk' : c'.pk = none := by rw [hF.pk, hpk]; rfl
    rw [hpk']
    refine ⟨fun e h => (by cases h), fun po h => ⟨[], rfl, ?_⟩⟩
    simp only [Except.ok.injEq] at h
    subst h
    exact ⟨⟨fun p h => (by cases h), fun p h => (by cases h), fun a b _ _ => by simp⟩, fun a b ⟨_, h, _⟩ => by cases h⟩
  | some pk =>
    have hpk' : c'.pk = some (fun i j => pk (π i) (π j)) := by rw [hF.pk, hpk]; rfl
    rw [hpk']
    simp only
    constructor
    · intro e h
      obtain ⟨a, b, ha, hb, h1, h2⟩ := Direct.extract_error.1 ⟨e, h⟩
      obtain ⟨a', ha', rfl⟩ := surj_of_rearranges hπ ha
      obtain ⟨b', hb', rfl⟩ := surj_of_rearranges hπ hb
      obtain ⟨e', h'⟩ := Direct.extract_error (n := n) (pk := fun i j => pk (π i) (π j)) |>.2 ⟨a', b', ha', hb', h1, h2⟩
      rw [h', error_kind h, error_kind h']
    · intro po h
      cases h' : Direct.extractPartialOrders n (fun i j => pk (π i) (π j)) with
      | error e =>
        obtain ⟨a, b, ha, hb, h1, h2⟩ := Direct.extract_error.1 ⟨e, h'⟩
        obtain ⟨e', h''⟩ := Direct.extract_error (n := n) (pk := pk) |>.2 ⟨π a, π b, lt_of_rearranges hπ ha, lt_of_rearranges hπ hb, h1, h2⟩
        rw [h''] at h
        cases h
      | ok po' =>
        refine ⟨po', rfl, ⟨fun p hp => ?_, fun p hp => ?_, fun a b ha hb => ?_⟩, fun a b ⟨q, hq, hab⟩ => ?_⟩
        · have := (Direct.extract_mem h p.1 p.2).1 hp
          exact ⟨this.1, this.2.1⟩
        · have := (Direct.extract_mem h' p.1 p.2).1 hp
          exact ⟨this.1, this.2.1⟩
        · rw [Direct.extract_mem h, Direct.extract_mem h']
          unfold MustPrecede
          simp only [ha, hb, lt_of_rearranges hπ ha, lt_of_rearranges hπ hb, true_and]
        · cases hq
          exact (Direct.extract_mem h a b).2 hab

/-- The regressions follow the columns: for the same predictors, in any order, of the same variable the same coefficients. -/
def RegressionFollows (n : Nat) (π : Nat → Nat) (lasso lasso' : Direct.Lasso F) : Prop :=
  ∀ ps ps' t p, ps'.Nodup → (∀ q ∈ ps', q < n) → (ps'.map π).Perm ps → t < n → p ∈ ps' → lasso' ps' t p = lasso ps (π t) (π p)

theorem predictors_perm {pk : Option Direct.PK} {l l' : List Nat} (h : l.Perm l') (t : Nat) :
    (Direct.predictors pk l t).Perm (Direct.predictors pk l' t) := by
  unfold Direct.predictors
  split
  · exact h
  · exact h.filter _

theorem adjacency_reordered (hπ : Rearranges n π) {pk : Option Direct.PK} {lasso lasso' : Direct.Lasso F} (hL : RegressionFollows n π lasso lasso')
    {o o' : Order} (ho : IsOrder n o.flat) (hb : o.block = [] ∨ 2 ≤ o.block.length) (ho' : IsOrder n o'.flat)
    (hb' : o'.block = [] ∨ 2 ≤ o'.block.length) (hr : o'.rest.map π = o.rest) (hbl : (o'.block.map π).Perm o.block) {i j : Nat} (hi : i < n)
    (hj : j < n) : adjacency (pk.map (fun pk i j => pk (π i) (π j))) lasso' o' i j = adjacency pk lasso o (π i) (π j) := by
  have hlt : ∀ k ∈ o'.flat, k < n := fun k hk => (ho'.2 k).1 hk
  have hmem : ∀ {l' l : List Nat}, (∀ k ∈ l', k < n) → (l'.map π).Perm l → ∀ {k}, k < n → (k ∈ l' ↔ π k ∈ l) := fun hl hp k hk => by
    rw [← hp.mem_iff]
    refine ⟨fun h => List.mem_map_of_mem h, fun h => ?_⟩
    obtain ⟨m, hm, e⟩ := List.mem_map.1 h
    exact inj_of_rearranges hπ (hl m hm) hk e ▸ hm
  have hblt : ∀ k ∈ o'.block, k < n := fun k hk => hlt k (List.mem_append_left _ hk)
  rcases List.mem_append.1 ((ho'.2 i).2 hi) with hib | hir
  · rw [adjacency_block _ _ hb' ho'.1 hib, adjacency_block _ _ hb ho.1 ((hmem hblt hbl hi).1 hib)]
    have e : (j ∈ o'.block ∧ i ≠ j) ↔ (π j ∈ o.block ∧ π i ≠ π j) := by
      rw [hmem hblt hbl hj]
      exact and_congr_right fun _ => ⟨fun h e => h (inj_of_rearranges hπ hi hj e), fun h e => h (by rw [e])⟩
    by_cases h : j ∈ o'.block ∧ i ≠ j
    · rw [if_pos h, if_pos (e.1 h)]
    · rw [if_neg h, if_neg fun hh => h (e.2 hh)]
  · obtain ⟨u, v, huv⟩ := List.append_of_mem hir
    have huv' : o.rest = u.map π ++ π i :: v.map π := by rw [← hr, huv]; simp
    rw [adjacency_rest _ _ hb' ho'.1 huv, adjacency_rest _ _ hb ho.1 huv']
    have hsub : (o'.block ++ u).Sublist o'.flat := by
      unfold Order.flat
      rw [huv]
      exact (List.Sublist.refl _).append (List.sublist_append_left u _)
    have hps : (Direct.predictors (pk.map (fun pk i j => pk (π i) (π j))) (o'.block ++ u) i).Sublist (o'.block ++ u) := by
      unfold Direct.predictors
      split
      · exact List.Sublist.refl _
      · exact List.filter_sublist
    have hperm : ((Direct.predictors (pk.map (fun pk i j => pk (π i) (π j))) (o'.block ++ u) i).map π).Perm
        (Direct.predictors pk (o.block ++ u.map π) (π i)) := by
      rw [predictors_reordered fun p hp e => inj_of_rearranges hπ hi (hlt p (hsub.subset hp)) e, List.map_append]
      exact predictors_perm (hbl.append_right _) _
    have hpl : ∀ q ∈ Direct.predictors (pk.map (fun pk i j => pk (π i) (π j))) (o'.block ++ u) i, q < n :=
      fun q hq => hlt q (hsub.subset (hps.subset hq))
    by_cases hjm : j ∈ Direct.predictors (pk.map (fun pk i j => pk (π i) (π j))) (o'.block ++ u) i
    · rw [if_pos hjm, if_pos ((hmem hpl hperm hj).1 hjm), hL _ _ i j ((hps.trans hsub).nodup ho'.1) hpl hperm hi hjm]
    · rw [if_neg hjm, if_neg fun hh => hjm ((hmem hpl hperm hj).2 hh)]

end Verif.Parce
