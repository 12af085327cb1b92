import Verif.Model.SimulatorNames
import Verif.Props.SimulatorRuns
import Mathlib.Data.List.Nodup
import Mathlib.Data.List.GetD
import Mathlib.Data.List.Dedup
import Mathlib.Algebra.Order.Field.Rat

/-!
# Names and arguments of the simulator (C205)
-/
set_option autoImplicit false
set_option linter.unusedSectionVars false
namespace Verif.SimNames
open Verif.Simulator (Col Predictor Impl Change)

variable {K : Type} [Field K] [LinearOrder K] [IsStrictOrderedRing K]

/-! ### Names -/

theorem digits_injective : Function.Injective digits := fun a b h => by
  have := congrArg (fun l => Nat.ofDigitChars 10 l 0) h
  simpa [digits, Nat.ofDigitChars_ten_toDigits] using this

theorem bracket_not_digit (i : Nat) : '[' ∉ digits i := fun h => by
  have := Nat.isDigit_of_mem_toDigits (by norm_num) (by norm_num) h
  revert this
  decide

/-- **C205.** Without labels, and for distinct labels that are strings, the names of the variables are distinct; there is one for each
column.  The labels 0, 1, … that pandas uses by default give the names of an array. -/
theorem C205_names (n : Nat) : (plainNames n none).Nodup ∧ (plainNames n none).length = n ∧
    plainNames n (some ((List.range n).map fun i : Nat => Label.int (i : Int))) = plainNames n none ∧
    ∀ l : List Name, l.Nodup → plainNames n (some (l.map Label.str)) = l := by
  refine ⟨(List.nodup_map_iff digits_injective).2 List.nodup_range, by simp [plainNames], ?_, fun l _ => ?_⟩
  · simp only [plainNames, List.map_map]
    refine List.map_congr_left fun i _ => ?_
    simp [strOf]
  · simp only [plainNames, List.map_map]
    exact (List.map_congr_left fun s _ => rfl).trans (List.map_id l)

/-- **C205 (violated).** Labels that are different for pandas can become the same name: then the data of the second column are never
read. -/
theorem C205_names_clash : ∃ labels : List Label, labels.Nodup ∧ ¬ (plainNames 2 (some labels)).Nodup ∧
    ∀ (disc : List Name) (graph : Nat → Nat → K) (data : Nat → Col K) (rows : Nat) (s : Name), s ∈ plainNames 2 (some labels) →
      (⟨plainNames 2 (some labels), disc, graph, data, rows⟩ : Handler K).column s = data 0 := by
  refine ⟨[.int 1, .str ['1']], by decide, by decide, fun disc graph data rows s hs => ?_⟩
  have : s = ['1'] := by
    have h : plainNames 2 (some [Label.int 1, Label.str ['1']]) = [['1'], ['1']] := by decide
    rw [h] at hs
    simpa using hs
  subst this
  rfl

theorem timeIndex_split (i : Nat) : ∃ rest : Name, timeIndex i = '[' :: rest ∧ '[' ∉ rest := by
  unfold timeIndex
  split
  · exact ⟨_, rfl, by decide⟩
  · refine ⟨_, rfl, ?_⟩
    have := bracket_not_digit i
    simp [this]

theorem timeIndex_injective : Function.Injective timeIndex := fun a b h => by
  unfold timeIndex at h
  split at h <;> split at h
  · omega
  · simp at h
  · simp at h
  · simp only [List.cons_append, List.nil_append, List.cons.injEq, true_and] at h
    exact digits_injective (List.append_cancel_right h)

theorem split_bracket {a b : Name} {r r' : Name} (hr : '[' ∉ r) (hr' : '[' ∉ r') (h : a ++ '[' :: r = b ++ '[' :: r') :
    a = b ∧ r = r' := by
  have h' := congrArg List.reverse h
  simp only [List.reverse_append, List.reverse_cons, List.append_assoc, List.singleton_append] at h'
  have key : ∀ (x y u v : Name), '[' ∉ x → '[' ∉ y → x ++ '[' :: u = y ++ '[' :: v → x = y ∧ u = v := by
    intro x
    induction x with
    | nil =>
      intro y u v _ hy e
      cases y with
      | nil => simpa using e
      | cons c y => simp only [List.nil_append, List.cons_append, List.cons.injEq] at e; exact absurd (List.mem_cons.2 (.inl e.1)) hy
    | cons c x ih =>
      intro y u v hx hy e
      cases y with
      | nil => simp only [List.nil_append, List.cons_append, List.cons.injEq] at e; exact absurd (List.mem_cons.2 (.inl e.1.symm)) hx
      | cons d y =>
        simp only [List.cons_append, List.cons.injEq] at e
        obtain ⟨h1, h2⟩ := ih y u v (fun h => hx (by simp [h])) (fun h => hy (by simp [h])) e.2
        exact ⟨by rw [e.1, h1], h2⟩
  obtain ⟨h1, h2⟩ := key _ _ _ _ (by simpa using hr) (by simpa using hr') h'
  exact ⟨List.reverse_injective h2, List.reverse_injective h1⟩

/-- Names at all lags are distinct when the names of the variables are. -/
theorem addIndex_injective {s s' : Name} {i i' : Nat} (h : s ++ timeIndex i = s' ++ timeIndex i') : s = s' ∧ i = i' := by
  obtain ⟨r, hr, hb⟩ := timeIndex_split i
  obtain ⟨r', hr', hb'⟩ := timeIndex_split i'
  rw [hr, hr'] at h
  obtain ⟨h1, h2⟩ := split_bracket hb hb' h
  exact ⟨h1, timeIndex_injective (by rw [hr, hr', h2])⟩

theorem mapM_addIndex : ∀ l : List (Nat × Name), (l.map (fun p => (p.1, Label.str p.2))).mapM (fun p => addIndex p.1 p.2) =
    (.ok (l.map (fun p => p.2 ++ timeIndex p.1)) : Except Err (List Name))
  | [] => rfl
  | p :: l => by
    rw [List.map_cons, List.mapM_cons, mapM_addIndex l]
    rfl

theorem tsNames_strings (n L : Nat) (l : List Name) : tsNames n L (some (l.map Label.str)) =
    .ok ((List.range (L + 1)).flatMap (fun i => l.map (fun s => s ++ timeIndex i))) := by
  unfold tsNames
  simp only [List.map_map]
  have := mapM_addIndex ((List.range (L + 1)).flatMap (fun i => l.map (fun s => (i, s))))
  rw [List.map_flatMap, List.map_flatMap] at this
  simp only [List.map_map] at this
  exact this

theorem nodup_lags {l : List Name} (h : l.Nodup) (L : Nat) : ((List.range L).flatMap (fun i => l.map (fun s => s ++ timeIndex i))).Nodup := by
  rw [List.nodup_flatMap]
  refine ⟨fun i _ => (List.nodup_map_iff fun a b e => (addIndex_injective e).1).2 h, ?_⟩
  refine List.nodup_range.imp fun {i j} hij => ?_
  intro s hs ht
  obtain ⟨a, _, ha⟩ := List.mem_map.1 hs
  obtain ⟨b, _, hb⟩ := List.mem_map.1 ht
  exact hij (addIndex_injective (ha.trans hb.symm)).2

/-- **C205.** For the time series handler the names of all variables at all lags are distinct, for arrays and for distinct labels that are
strings. -/
theorem C205_names_lags (n L : Nat) : (∃ l, tsNames n L none = .ok l ∧ l.Nodup ∧ l.length = (L + 1) * n) ∧
    ∀ l : List Name, l.Nodup → ∃ l', tsNames n L (some (l.map Label.str)) = .ok l' ∧ l'.Nodup ∧ l'.length = (L + 1) * l.length := by
  have key : ∀ l : List Name, l.Nodup → ∃ l', tsNames n L (some (l.map Label.str)) = .ok l' ∧ l'.Nodup ∧ l'.length = (L + 1) * l.length :=
    fun l hl => ⟨_, tsNames_strings n L l, nodup_lags hl _, by simp [List.length_flatMap]⟩
  refine ⟨?_, key⟩
  obtain ⟨l', h1, h2, h3⟩ := key ((List.range n).map digits) ((List.nodup_map_iff digits_injective).2 List.nodup_range)
  refine ⟨l', ?_, h2, by simpa using h3⟩
  rw [← h1]
  unfold tsNames
  simp only [List.map_map]
  rfl

/-- **C205 (violated).** A data frame whose labels are numbers, such as `pd.DataFrame(array)`, is refused by the time series handler, and
accepted by the others. -/
theorem C205_numbered_columns (n L : Nat) (l : List Label) (i : Int) (h : Label.int i ∈ l) : tsNames n L (some l) = .error .type := by
  unfold tsNames
  have key : ∀ q : List (Nat × Label), (∃ j, (j, Label.int i) ∈ q) → q.mapM (fun p => addIndex p.1 p.2) = .error .type := by
    intro q
    induction q with
    | nil => rintro ⟨j, hj⟩; cases hj
    | cons p q ih =>
      rintro ⟨j, hj⟩
      rw [List.mapM_cons]
      rcases p with ⟨a, b | b⟩
      · rfl
      · rcases List.mem_cons.1 hj with e | e
        · cases e
        · rw [ih ⟨j, e⟩]; rfl
  refine key _ ⟨0, ?_⟩
  simp only [List.mem_flatMap, List.mem_map, List.mem_range]
  exact ⟨0, by omega, _, h, rfl⟩

/-! ### Which arguments are accepted -/

/-- Well-formed values for error terms: known numeric variables, no NaN, as many values as rows. -/
def ExogOk (h : Handler K) (l : List (Label × Values K)) : Prop :=
  ∀ e ∈ l, ∃ s, e.1 = .str s ∧ s ∈ h.names ∧ s ∉ h.disc ∧ (∀ x ∈ e.2.cells, x ≠ none) ∧ e.2.cells ≠ [] ∧ e.2.cells.length = h.rows

theorem checkExogList_iff (h : Handler K) : ∀ l : List (Label × Values K), (∃ r, checkExogList h l = .ok r) ↔ ExogOk h l
  | [] => ⟨fun _ e he => (by cases he), fun _ => ⟨[], rfl⟩⟩
  | (.int i, v) :: l => by
    constructor
    · rintro ⟨r, hr⟩; cases hr
    · intro hok
      obtain ⟨s, hs, _⟩ := hok _ List.mem_cons_self
      cases hs
  | (.str s, v) :: l => by
    have ih := checkExogList_iff h l
    have hany : (v.cells.any Option.isNone || v.cells.isEmpty) = true ↔ ¬ ((∀ x ∈ v.cells, x ≠ none) ∧ v.cells ≠ []) := by
      simp only [Bool.or_eq_true, List.any_eq_true, List.isEmpty_iff, not_and_or, not_forall, not_not, Option.isNone_iff_eq_none,
        exists_prop, ne_eq]
    have hcons : ExogOk h ((.str s, v) :: l) ↔ (s ∈ h.names ∧ s ∉ h.disc ∧ (∀ x ∈ v.cells, x ≠ none) ∧ v.cells ≠ [] ∧
        v.cells.length = h.rows) ∧ ExogOk h l := by
      constructor
      · intro hok
        obtain ⟨s', hs', hrest⟩ := hok _ List.mem_cons_self
        cases hs'
        exact ⟨hrest, fun e he => hok e (List.mem_cons_of_mem _ he)⟩
      · rintro ⟨h1, h2⟩ e he
        rcases List.mem_cons.1 he with rfl | he
        · exact ⟨s, rfl, h1⟩
        · exact h2 e he
    rw [hcons, ← ih]
    simp only [checkExogList]
    by_cases h1 : s ∈ h.names
    · rw [if_neg (not_not.2 h1)]
      by_cases h2 : s ∈ h.disc
      · rw [if_pos h2]
        exact ⟨fun ⟨r, hr⟩ => (by cases hr), fun h => absurd h2 h.1.2.1⟩
      · rw [if_neg h2]
        by_cases h3 : (v.cells.any Option.isNone || v.cells.isEmpty) = true
        · rw [if_pos h3]
          exact ⟨fun ⟨r, hr⟩ => (by cases hr), fun h => absurd ⟨h.1.2.2.1, h.1.2.2.2.1⟩ (hany.1 h3)⟩
        · rw [if_neg h3]
          have h3' := not_not.1 (mt hany.2 h3)
          by_cases h4 : v.cells.length = h.rows
          · rw [if_neg (not_not.2 h4)]
            constructor
            · rintro ⟨r, hr⟩
              refine ⟨⟨h1, h2, h3'.1, h3'.2, h4⟩, ?_⟩
              cases hl : checkExogList h l with
              | error e => rw [hl] at hr; cases hr
              | ok r' => exact ⟨r', rfl⟩
            · rintro ⟨_, r, hr⟩
              rw [hr]
              exact ⟨_, rfl⟩
          · rw [if_pos h4]
            exact ⟨fun ⟨r, hr⟩ => (by cases hr), fun h => absurd h.1.2.2.2.2 h4⟩
    · rw [if_pos h1]
      exact ⟨fun ⟨r, hr⟩ => (by cases hr), fun h => absurd h.1.1 h1⟩

/-- A well-formed change: a dictionary for a known variable with a list of known parents and, if there are any, as many finite
coefficients, or no coefficients and a model of the right kind. -/
def ChangeOk (h : Handler K) (e : Label × Info K) : Prop :=
  e.2.isDict = true ∧ ∃ t, e.1 = .str t ∧ t ∈ h.names ∧ ∃ ps : List Name, e.2.parentNames = some (some (ps.map Label.str)) ∧
    (∀ p ∈ ps, p ∈ h.names) ∧ (ps ≠ [] → (∃ c, e.2.coef = some (some c) ∧ c.length = ps.length) ∨
      (e.2.coef = none ∧ ∃ m, e.2.model = some (some m) ∧
        (t ∈ h.disc → m.classifier = true ∧ m.hasProba = true) ∧ (t ∉ h.disc → m.regressor = true)))

theorem checkModel_iff (m : UserModel K) (d : Bool) : checkModel m d = .ok () ↔
    (d = true → m.classifier = true ∧ m.hasProba = true) ∧ (d = false → m.regressor = true) := by
  unfold checkModel
  cases d <;> cases m.classifier <;> cases m.hasProba <;> cases m.regressor <;> simp

theorem checkParents_iff (h : Handler K) : ∀ (l : List Label) (r : List Name), checkParents h l = .ok r ↔
    l = r.map Label.str ∧ ∀ p ∈ r, p ∈ h.names
  | [], r => by
    simp only [checkParents, Except.ok.injEq]
    constructor
    · rintro rfl; simp
    · rintro ⟨h1, _⟩
      exact (List.map_eq_nil_iff.1 h1.symm).symm
  | .int i :: l, r => by
    simp only [checkParents]
    constructor
    · intro h; cases h
    · rintro ⟨h1, _⟩
      cases r with
      | nil => cases h1
      | cons a r => simp at h1
  | .str s :: l, r => by
    simp only [checkParents]
    have ih := checkParents_iff h l
    by_cases hs : s ∈ h.names
    · rw [if_neg (not_not.2 hs)]
      cases r with
      | nil =>
        constructor
        · intro e
          split at e <;> cases e
        · rintro ⟨h1, _⟩; cases h1
      | cons a r =>
        constructor
        · intro e
          split at e
          · cases e
          · rename_i r' hr'
            simp only [Except.ok.injEq, List.cons.injEq] at e
            obtain ⟨rfl, rfl⟩ := e
            obtain ⟨h1, h2⟩ := (ih _).1 hr'
            exact ⟨by rw [h1]; rfl, by simpa [hs] using h2⟩
        · rintro ⟨h1, h2⟩
          simp only [List.map_cons, List.cons.injEq, Label.str.injEq] at h1
          rw [(ih r).2 ⟨h1.2, fun p hp => h2 p (by simp [hp])⟩, h1.1]
    · rw [if_pos hs]
      constructor
      · intro e; cases e
      · rintro ⟨h1, h2⟩
        cases r with
        | nil => cases h1
        | cons a r =>
          simp only [List.map_cons, List.cons.injEq, Label.str.injEq] at h1
          exact absurd (h1.1 ▸ h2 a (by simp)) hs

/-- What an accepted change looks like. -/
theorem checkChange_ok {h : Handler K} {k : Label} {i : Info K} {t : Name} {c : Changed K} (e : checkChange h k i = .ok (t, c)) :
    k = .str t ∧ t ∈ h.names ∧ (∀ p ∈ c.parents, p ∈ h.names) ∧ (c.parents ≠ [] → c.model.isSome) ∧ ChangeOk h (k, i) ∧
      i.parentNames = some (some (c.parents.map Label.str)) ∧
      (c.parents ≠ [] → ∀ b, i.coef = some (some b) → c.model = some (if t ∈ h.disc then logitModel b else Simulator.coefModel b)) := by
  unfold checkChange at e
  cases hd : i.isDict with
  | false => simp [hd] at e
  | true =>
    simp only [hd, Bool.not_true, Bool.false_eq_true, if_false] at e
    cases k with
    | int j => cases e
    | str t' =>
      simp only at e
      by_cases ht : t' ∈ h.names
      · rw [if_neg (not_not.2 ht)] at e
        cases hp : i.parentNames with
        | none => rw [hp] at e; cases e
        | some o =>
          rw [hp] at e
          cases o with
          | none => cases e
          | some ps =>
            simp only at e
            cases hq : checkParents h ps with
            | error x => rw [hq] at e; cases e
            | ok r =>
              obtain ⟨h1, h2⟩ := (checkParents_iff h ps r).1 hq
              rw [hq] at e
              subst h1
              cases r with
              | nil =>
                simp only [Except.ok.injEq, Prod.mk.injEq] at e
                obtain ⟨rfl, rfl⟩ := e
                exact ⟨rfl, ht, by simp, by simp, ⟨hd, t', rfl, ht, [], hp, by simp, by simp⟩, rfl, by simp⟩
              | cons p ps =>
                simp only at e
                cases hc : i.coef with
                | none =>
                  rw [hc] at e
                  cases hm : i.model with
                  | none => rw [hm] at e; cases e
                  | some o =>
                    rw [hm] at e
                    cases o with
                    | none => cases e
                    | some m =>
                      simp only at e
                      cases hk : checkModel m (decide (t' ∈ h.disc)) with
                      | error x => rw [hk] at e; cases e
                      | ok u =>
                        rw [hk] at e
                        simp only [Except.ok.injEq, Prod.mk.injEq] at e
                        obtain ⟨rfl, rfl⟩ := e
                        refine ⟨rfl, ht, h2, by simp, ⟨hd, t', rfl, ht, p :: ps, hp, h2, fun _ => .inr ⟨hc, m, hm, ?_⟩⟩, rfl, by simp⟩
                        simpa using (checkModel_iff m _).1 hk
                | some o =>
                  rw [hc] at e
                  cases o with
                  | none => cases e
                  | some c' =>
                    simp only at e
                    by_cases hl : c'.length = (p :: ps).length
                    · rw [if_neg (not_not.2 hl)] at e
                      simp only [Except.ok.injEq, Prod.mk.injEq] at e
                      obtain ⟨rfl, rfl⟩ := e
                      refine ⟨rfl, ht, h2, by simp, ⟨hd, t', rfl, ht, p :: ps, hp, h2, fun _ => .inl ⟨c', hc, hl⟩⟩, rfl, ?_⟩
                      intro _ b hb
                      simp only [Option.some.injEq] at hb
                      rw [hb]
                    · rw [if_pos hl] at e; cases e
      · rw [if_pos ht] at e; cases e

theorem checkChange_accepts {h : Handler K} {k : Label} {i : Info K} (hok : ChangeOk h (k, i)) : ∃ r, checkChange h k i = .ok r := by
  obtain ⟨hd, t, rfl, ht, ps, hp, hps, hrest⟩ := hok
  simp only at hd hp hrest
  unfold checkChange
  simp only [hd, Bool.not_true, Bool.false_eq_true, if_false, hp, if_neg (not_not.2 ht)]
  rw [(checkParents_iff h _ ps).2 ⟨rfl, hps⟩]
  cases ps with
  | nil => exact ⟨_, rfl⟩
  | cons p ps =>
    simp only
    rcases hrest (by simp) with ⟨c, hc, hl⟩ | ⟨hc, m, hm, h1, h2⟩
    · rw [hc]
      simp only
      rw [if_neg (not_not.2 hl)]
      exact ⟨_, rfl⟩
    · rw [hc, hm]
      simp only
      rw [(checkModel_iff m _).2 (by simpa using ⟨h1, h2⟩)]
      exact ⟨_, rfl⟩

theorem checkChangeList_iff (h : Handler K) : ∀ l : List (Label × Info K), (∃ r, checkChangeList h l = .ok r) ↔ ∀ e ∈ l, ChangeOk h e
  | [] => ⟨fun _ e he => (by cases he), fun _ => ⟨[], rfl⟩⟩
  | (k, i) :: l => by
    have ih := checkChangeList_iff h l
    simp only [checkChangeList, List.forall_mem_cons]
    rw [← ih]
    constructor
    · rintro ⟨r, hr⟩
      cases hc : checkChange h k i with
      | error e => rw [hc] at hr; cases hr
      | ok c =>
        rw [hc] at hr
        simp only at hr
        refine ⟨(checkChange_ok (t := c.1) (c := c.2) hc).2.2.2.2.1, ?_⟩
        cases hl : checkChangeList h l with
        | error e => rw [hl] at hr; cases hr
        | ok r' => exact ⟨r', rfl⟩
    · rintro ⟨hok, r, hr⟩
      obtain ⟨c, hc⟩ := checkChange_accepts hok
      rw [hc, hr]
      exact ⟨_, rfl⟩

/-- Python dictionaries have every key once. -/
def IsDict {α : Type} (l : List (Label × α)) : Prop := (l.map Prod.fst).Nodup

/-- Accepted values for error terms are kept under their names. -/
theorem checkExogList_ok {h : Handler K} : ∀ {l : List (Label × Values K)} {r : List (Name × Values K)}, checkExogList h l = .ok r →
    l = r.map (fun e => (Label.str e.1, e.2))
  | [], r, e => by
    simp only [checkExogList, Except.ok.injEq] at e
    subst e; rfl
  | (.int i, v) :: l, r, e => by cases e
  | (.str s, v) :: l, r, e => by
    simp only [checkExogList] at e
    split at e
    · cases e
    · split at e
      · cases e
      · split at e
        · cases e
        · split at e
          · cases e
          · split at e
            · cases e
            · rename_i r' hr'
              simp only [Except.ok.injEq] at e
              subst e
              rw [checkExogList_ok hr']
              rfl

/-- Every accepted change comes from an entry of the dictionary, in order. -/
theorem checkChangeList_ok {h : Handler K} : ∀ {l : List (Label × Info K)} {r : List (Name × Changed K)}, checkChangeList h l = .ok r →
    List.Forall₂ (fun e c => checkChange h e.1 e.2 = .ok c) l r
  | [], r, e => by
    simp only [checkChangeList, Except.ok.injEq] at e
    subst e; exact .nil
  | (k, i) :: l, r, e => by
    simp only [checkChangeList] at e
    split at e
    · cases e
    · rename_i c hc
      split at e
      · cases e
      · rename_i r' hr'
        simp only [Except.ok.injEq] at e
        subst e
        exact .cons hc (checkChangeList_ok hr')

/-! ### Names and column numbers -/

/-- The name of a column. -/
def Handler.nm (h : Handler K) (v : Nat) : Name := h.names.getD v []

/-- The handler with column numbers. -/
def byIndex (h : Handler K) : Impl K := ⟨h.names.length, h.graph, h.data, fun v => decide (h.nm v ∈ h.disc)⟩

/-- The values given for an error term. -/
def Values.col (v : Values K) : Col K := fun r => (v.cells.getD r none).getD 0

/-- The given values by column number. -/
def exogByIndex (h : Handler K) (ce : List (Name × Values K)) (v : Nat) : Option (Col K) :=
  if v < h.names.length then (look ce (h.nm v)).map Values.col else none

/-- The changed models by column number. -/
def changesByIndex (h : Handler K) (cm : List (Name × Changed K)) (v : Nat) : Option (Change K) :=
  if v < h.names.length then (look cm (h.nm v)).map (fun c => ⟨c.parents.map h.index, c.model.getD (fun _ _ => 0)⟩) else none

variable {h : Handler K}

theorem nm_mem {v : Nat} (hv : v < h.names.length) : h.nm v ∈ h.names := by
  unfold Handler.nm
  rw [List.getD_eq_getElem _ _ hv]
  exact List.getElem_mem hv

theorem index_nm (hn : h.names.Nodup) {v : Nat} (hv : v < h.names.length) : h.index (h.nm v) = v := by
  unfold Handler.nm Handler.index
  rw [List.getD_eq_getElem _ _ hv]
  exact hn.idxOf_getElem v hv

theorem index_lt {s : Name} (hs : s ∈ h.names) : h.index s < h.names.length := List.idxOf_lt_length_of_mem hs

theorem nm_index {s : Name} (hs : s ∈ h.names) : h.nm (h.index s) = s := by
  unfold Handler.nm Handler.index
  rw [List.getD_eq_getElem _ _ (List.idxOf_lt_length_of_mem hs)]
  exact List.getElem_idxOf _

theorem nm_inj (hn : h.names.Nodup) {v w : Nat} (hv : v < h.names.length) (hw : w < h.names.length) : h.nm v = h.nm w ↔ v = w :=
  ⟨fun e => by rw [← index_nm hn hv, e, index_nm hn hw], fun e => by rw [e]⟩

theorem parents_lt {G : Nat → Nat → K} {n v j : Nat} (hj : j ∈ Simulator.parents G n v) : j < n := by
  unfold Simulator.parents at hj
  exact List.mem_range.1 (List.mem_filter.1 hj).1

theorem handler_parents (hn : h.names.Nodup) {v : Nat} (hv : v < h.names.length) :
    h.parents (h.nm v) = (Simulator.parents h.graph h.names.length v).map h.nm := by
  unfold Handler.parents
  rw [index_nm hn hv]
  rfl

theorem column_nm (hn : h.names.Nodup) {v : Nat} (hv : v < h.names.length) : h.column (h.nm v) = h.data v := by
  unfold Handler.column
  rw [index_nm hn hv]

theorem trained_nm (hn : h.names.Nodup) (D : Defaults K) (ms : List (Name × UserModel K)) {v : Nat} (hv : v < h.names.length) :
    trained h D ms (h.nm v) = Simulator.trainVar (byIndex h) (fun v => fitFor h D ms (h.nm v)) v := by
  unfold trained Simulator.trainVar
  have hX : (h.parents (h.nm v)).map h.column = (Simulator.parents (byIndex h).graph (byIndex h).n v).map (byIndex h).data := by
    rw [handler_parents hn hv, List.map_map]
    exact List.map_congr_left fun j hj => column_nm hn (parents_lt hj)
  have he : (h.parents (h.nm v)).isEmpty = (Simulator.parents (byIndex h).graph (byIndex h).n v).isEmpty := by
    rw [handler_parents hn hv]
    show List.isEmpty (List.map _ (Simulator.parents h.graph h.names.length v)) = List.isEmpty (Simulator.parents h.graph h.names.length v)
    cases Simulator.parents h.graph h.names.length v <;> rfl
  rw [he]
  simp only [hX, column_nm hn hv]
  split
  · rfl
  · by_cases hd : h.nm v ∈ h.disc <;> simp [byIndex, hd]

/-- A set of accepted changes. -/
structure Accepted (h : Handler K) (cm : List (Name × Changed K)) : Prop where
  keys : (cm.map Prod.fst).Nodup
  known : ∀ e ∈ cm, e.1 ∈ h.names
  parents : ∀ e ∈ cm, ∀ p ∈ e.2.parents, p ∈ h.names
  model : ∀ e ∈ cm, e.2.parents ≠ [] → e.2.model.isSome

theorem look_mem {α : Type} {d : List (Name × α)} {s : Name} {a : α} (e : look d s = some a) : (s, a) ∈ d := by
  unfold look at e
  cases hf : d.find? (fun e => decide (e.1 = s)) with
  | none => rw [hf] at e; cases e
  | some p =>
    rw [hf] at e
    have h1 := List.mem_of_find?_eq_some hf
    have h2 := List.find?_some hf
    simp only [Option.map_some, Option.some.injEq] at e
    simp only [decide_eq_true_eq] at h2
    rw [← h2, ← e]
    exact h1

theorem look_cons {α : Type} (e : Name × α) (d : List (Name × α)) (s : Name) : look (e :: d) s = if e.1 = s then some e.2 else look d s := by
  unfold look
  rw [List.find?_cons]
  by_cases h : e.1 = s <;> simp [h]

theorem look_none {α : Type} {d : List (Name × α)} {s : Name} (h : s ∉ d.map Prod.fst) : look d s = none := by
  unfold look
  rw [List.find?_eq_none.2 fun e he hd => h (by simp only [decide_eq_true_eq] at hd; exact hd ▸ List.mem_map_of_mem he)]
  rfl

theorem changed_fold (hn : h.names.Nodup) : ∀ (cm : List (Name × Changed K)) (G : Nat → Nat → K), Accepted h cm →
    cm.foldl (changeRow h) G = Simulator.changedGraph G (changesByIndex h cm)
  | [], G, _ => by
    funext i j
    simp only [List.foldl_nil, Simulator.changedGraph, changesByIndex, look, List.find?_nil, Option.map_none, ite_self]
  | e :: cm, G, hA => by
    have hA' : Accepted h cm := ⟨(List.nodup_cons.1 hA.keys).2, fun e he => hA.known e (by simp [he]),
      fun e he => hA.parents e (by simp [he]), fun e he => hA.model e (by simp [he])⟩
    rw [List.foldl_cons, changed_fold hn cm _ hA']
    have hk : e.1 ∈ h.names := hA.known e (by simp)
    have hfresh : e.1 ∉ cm.map Prod.fst := (List.nodup_cons.1 hA.keys).1
    funext i j
    unfold Simulator.changedGraph changesByIndex changeRow
    by_cases hi : i < h.names.length
    · rw [if_pos hi, if_pos hi, look_cons]
      by_cases he : e.1 = h.nm i
      · rw [if_pos he, ← he, look_none hfresh]
        have : i = h.index e.1 := by rw [he, index_nm hn hi]
        simp only [Option.map_none, Option.map_some]
        rw [if_pos this]
      · rw [if_neg he]
        cases look cm (h.nm i) with
        | none =>
          have : i ≠ h.index e.1 := fun h' => he (by rw [h', nm_index hk])
          simp only [Option.map_none]
          rw [if_neg this]
        | some c => rfl
    · rw [if_neg hi, if_neg hi]
      have : i ≠ h.index e.1 := fun h' => hi (h' ▸ index_lt hk)
      simp only
      rw [if_neg this]

/-- The exceptions of the computation with column numbers. -/
def toErr : Simulator.Err → Err
  | .valueError => .value
  | .missing => .type

/-- Simulated columns under names and under numbers. -/
def SameColumns (h : Handler K) (sim : Name → Option (Col K)) (simI : Nat → Option (Col K)) : Prop :=
  ∀ v, v < h.names.length → sim (h.nm v) = simI v

theorem mapM_names {sim : Name → Option (Col K)} {simI : Nat → Option (Col K)} (hs : SameColumns h sim simI) :
    ∀ l : List Nat, (∀ j ∈ l, j < h.names.length) → (l.map h.nm).mapM sim = Simulator.columns simI l
  | [], _ => rfl
  | j :: l, hl => by
    unfold Simulator.columns
    rw [List.map_cons, List.mapM_cons, List.mapM_cons, hs j (hl j (by simp)), mapM_names hs l fun k hk => hl k (by simp [hk])]
    rfl

theorem parentsOf_nm (hn : h.names.Nodup) {cm : List (Name × Changed K)} (hA : Accepted h cm) {v : Nat} (hv : v < h.names.length) :
    parentsOf h cm (h.nm v) = (Simulator.parentsOf (byIndex h) (changesByIndex h cm) v).map h.nm ∧
    ∀ j ∈ Simulator.parentsOf (byIndex h) (changesByIndex h cm) v, j < h.names.length := by
  unfold parentsOf Simulator.parentsOf changesByIndex
  rw [if_pos hv]
  cases hl : look cm (h.nm v) with
  | none => exact ⟨handler_parents hn hv, fun j hj => parents_lt hj⟩
  | some c =>
    have hp := hA.parents _ (look_mem hl)
    simp only [Option.map_some, List.map_map]
    refine ⟨?_, fun j hj => ?_⟩
    · exact ((List.map_congr_left fun p hpc => nm_index (hp p hpc)).trans (List.map_id _)).symm
    · obtain ⟨p, hpc, rfl⟩ := List.mem_map.1 hj
      exact index_lt (hp p hpc)

theorem errorOf_nm (hn : h.names.Nodup) (D : Defaults K) (ms : List (Name × UserModel K)) {ce : List (Name × Values K)}
    (hce : ∀ e ∈ ce, e.2.isList = false) (sh : Option (Nat → Nat)) {v : Nat} (hv : v < h.names.length) :
    errorOf h D ms ce sh (h.nm v) = .ok (Simulator.errorOf (byIndex h) (fun v => fitFor h D ms (h.nm v)) (exogByIndex h ce) sh v) := by
  unfold errorOf Simulator.errorOf exogByIndex
  rw [if_pos hv, trained_nm hn D ms hv]
  cases hl : look ce (h.nm v) with
  | none => cases sh <;> rfl
  | some x =>
    have hx : x.isList = false := hce _ (look_mem hl)
    have e1 : (if x.isList = true then (Except.error Err.attribute : Except Err (Option (Col K))) else
        .ok (some (fun r => (x.cells.getD r none).getD 0))) = .ok (some x.col) := by rw [hx]; rfl
    simp only [Option.map_some, e1]
    cases sh <;> rfl

theorem simVar_nm (hn : h.names.Nodup) (D : Defaults K) (ms : List (Name × UserModel K)) {ce : List (Name × Values K)}
    (hce : ∀ e ∈ ce, e.2.isList = false) {cm : List (Name × Changed K)} (hA : Accepted h cm) (sh : Option (Nat → Nat))
    {sim : Name → Option (Col K)} {simI : Nat → Option (Col K)} (hs : SameColumns h sim simI) {v : Nat} (hv : v < h.names.length) :
    simVar h D ms ce cm sh sim (h.nm v) = (Simulator.simVar (byIndex h) (fun v => fitFor h D ms (h.nm v)) (exogByIndex h ce)
      (changesByIndex h cm) sh simI v).mapError toErr := by
  unfold simVar Simulator.simVar
  rw [errorOf_nm hn D ms hce sh hv]
  obtain ⟨hp, hlt⟩ := parentsOf_nm hn hA hv
  have hd : (byIndex h).discrete v = decide (h.nm v ∈ h.disc) := rfl
  simp only [hp, mapM_names hs _ hlt, column_nm hn hv, hd, decide_eq_true_eq]
  have hemp : ((Simulator.parentsOf (byIndex h) (changesByIndex h cm) v).map h.nm).isEmpty =
      (Simulator.parentsOf (byIndex h) (changesByIndex h cm) v).isEmpty := by
    cases Simulator.parentsOf (byIndex h) (changesByIndex h cm) v <;> rfl
  rw [hemp]
  split
  · split
    · rfl
    · split <;> rename_i h1 <;> simp only [h1] <;> rfl
  · rename_i hne
    have hm : modelOf h D ms cm (h.nm v) = Simulator.modelOf (byIndex h) (fun v => fitFor h D ms (h.nm v)) (changesByIndex h cm) v := by
      unfold modelOf Simulator.modelOf changesByIndex
      rw [if_pos hv, trained_nm hn D ms hv]
      cases hl : look cm (h.nm v) with
      | none => rfl
      | some c =>
        have hne' : c.parents ≠ [] := by
          intro h0
          apply hne
          unfold Simulator.parentsOf changesByIndex
          rw [if_pos hv, hl, Option.map_some, h0]
          rfl
        obtain ⟨m, hm⟩ := Option.isSome_iff_exists.1 (hA.model _ (look_mem hl) hne')
        simp only at hm
        show c.model = some (c.model.getD _)
        rw [hm]
        rfl
    rw [hm]
    cases Simulator.modelOf (byIndex h) (fun v => fitFor h D ms (h.nm v)) (changesByIndex h cm) v with
    | none => rfl
    | some m =>
      cases Simulator.columns simI (Simulator.parentsOf (byIndex h) (changesByIndex h cm) v) with
      | none => rfl
      | some X =>
        simp only
        split
        · rfl
        · cases Simulator.errorOf (byIndex h) (fun v => fitFor h D ms (h.nm v)) (exogByIndex h ce) sh v <;> rfl

theorem simLoop_nm (hn : h.names.Nodup) (D : Defaults K) (ms : List (Name × UserModel K)) {ce : List (Name × Values K)}
    (hce : ∀ e ∈ ce, e.2.isList = false) {cm : List (Name × Changed K)} (hA : Accepted h cm) (sh : Option (Nat → Nat)) :
    ∀ (o : List Nat) (sim : Name → Option (Col K)) (simI : Nat → Option (Col K)), (∀ v ∈ o, v < h.names.length) → SameColumns h sim simI →
      match Simulator.simLoop (byIndex h) (fun v => fitFor h D ms (h.nm v)) (exogByIndex h ce) (changesByIndex h cm) sh o simI with
      | .error e => simLoop h D ms ce cm sh (o.map h.nm) sim = .error (toErr e)
      | .ok sI => ∃ s, simLoop h D ms ce cm sh (o.map h.nm) sim = .ok s ∧ SameColumns h s sI
  | [], sim, simI, _, hs => ⟨sim, rfl, hs⟩
  | v :: o, sim, simI, ho, hs => by
    have hv := ho v (by simp)
    have e1 := simVar_nm hn D ms hce hA sh hs hv
    unfold Simulator.simLoop
    simp only [List.map_cons, simLoop, e1]
    cases Simulator.simVar (byIndex h) (fun v => fitFor h D ms (h.nm v)) (exogByIndex h ce) (changesByIndex h cm) sh simI v with
    | error e => rfl
    | ok c =>
      simp only [Except.mapError]
      refine simLoop_nm hn D ms hce hA sh o _ _ (fun w hw => ho w (by simp [hw])) fun w hw => ?_
      by_cases hwv : w = v
      · rw [if_pos hwv, if_pos ((nm_inj hn hw hv).2 hwv)]
      · rw [if_neg hwv, if_neg fun e => hwv ((nm_inj hn hw hv).1 e)]
        exact hs w hw

theorem accepted_of_checks {l : List (Label × Info K)} (hd : IsDict l) {r : List (Name × Changed K)} (hr : checkChangeList h l = .ok r) :
    Accepted h r := by
  have hf := checkChangeList_ok hr
  have hkeys : l.map Prod.fst = (r.map Prod.fst).map Label.str := by
    clear hr hd
    induction hf with
    | nil => rfl
    | @cons e c _ _ hc _ ih =>
      simp only [List.map_cons]
      rw [ih, (checkChange_ok (t := c.1) (c := c.2) hc).1]
  have hall : ∀ c ∈ r, ∃ e : Label × Info K, checkChange h e.1 e.2 = .ok c := by
    clear hr hd hkeys
    induction hf with
    | nil => intro c hc; cases hc
    | @cons e c _ _ hc _ ih =>
      intro c' hc'
      rcases List.mem_cons.1 hc' with rfl | h'
      · exact ⟨e, hc⟩
      · exact ih c' h'
  refine ⟨?_, fun c hc => ?_, fun c hc => ?_, fun c hc => ?_⟩
  · unfold IsDict at hd
    rw [hkeys] at hd
    exact List.Nodup.of_map _ hd
  all_goals
    obtain ⟨e, he⟩ := hall c hc
    have := checkChange_ok (t := c.1) (c := c.2) he
  · exact this.2.1
  · exact this.2.2.1
  · exact this.2.2.2.1

theorem look_of_mem {α : Type} : ∀ {d : List (Name × α)} {s : Name} {a : α}, (d.map Prod.fst).Nodup → (s, a) ∈ d → look d s = some a
  | e :: d, s, a, hd, hm => by
    rw [look_cons]
    rcases List.mem_cons.1 hm with h | h
    · subst h; simp
    · rw [if_neg fun h' : e.1 = s => (List.nodup_cons.1 hd).1 (h' ▸ List.mem_map.2 ⟨_, h, rfl⟩)]
      exact look_of_mem (List.nodup_cons.1 hd).2 h

theorem changes_keys {l : List (Label × Info K)} {r : List (Name × Changed K)}
    (hf : List.Forall₂ (fun e c => checkChange h e.1 e.2 = .ok c) l r) : l.map Prod.fst = (r.map Prod.fst).map Label.str := by
  induction hf with
  | nil => rfl
  | @cons e c _ _ hc _ ih =>
    simp only [List.map_cons]
    rw [ih, (checkChange_ok (t := c.1) (c := c.2) hc).1]

theorem changes_mem {l : List (Label × Info K)} {r : List (Name × Changed K)}
    (hf : List.Forall₂ (fun e c => checkChange h e.1 e.2 = .ok c) l r) {s : Name} {i : Info K} (hm : (Label.str s, i) ∈ l) :
    ∃ c, (s, c) ∈ r ∧ checkChange h (.str s) i = .ok (s, c) := by
  induction hf with
  | nil => cases hm
  | @cons e c _ _ hc _ ih =>
    rcases List.mem_cons.1 hm with h' | h'
    · subst h'
      have := (checkChange_ok (t := c.1) (c := c.2) hc).1
      cases this
      exact ⟨c.2, by simp, hc⟩
    · obtain ⟨c', h1, h2⟩ := ih h'
      exact ⟨c', by simp [h1], h2⟩

theorem checkChange_model {t : Name} {i : Info K} {c : Changed K} {m : UserModel K} (e : checkChange h (.str t) i = .ok (t, c))
    (hne : c.parents ≠ []) (hc : i.coef = none) (hm : i.model = some (some m)) : c.model = some m.predict := by
  obtain ⟨-, ht, hps, -, ⟨hd, -⟩, hp, -⟩ := checkChange_ok e
  simp only at hd
  unfold checkChange at e
  simp only [hd, Bool.not_true, Bool.false_eq_true, if_false, hp, if_neg (not_not.2 ht), (checkParents_iff h _ c.parents).2 ⟨rfl, hps⟩] at e
  cases hcp : c.parents with
  | nil => exact absurd hcp hne
  | cons p ps =>
    rw [hcp] at e
    simp only [hc, hm] at e
    cases hk : checkModel m (decide (t ∈ h.disc)) with
    | error x => rw [hk] at e; cases e
    | ok u =>
      rw [hk] at e
      simp only [Except.ok.injEq, Prod.mk.injEq, true_and] at e
      rw [← e]

/-! ### What a run returns, in terms of names -/

/-- The parents in the training graph: the names with a coefficient larger than `1e-8` in absolute value, in the order of the names. -/
def graphParents (h : Handler K) (s : Name) : List Name :=
  h.names.filter (fun p => decide ((1 / 10 ^ 8 : K) < |h.graph (h.names.idxOf s) (h.names.idxOf p)|))

/-- The column of a name. -/
def dataOf (h : Handler K) (s : Name) : Col K := h.data (h.names.idxOf s)

/-- The model fitted in training: the user's, otherwise the logistic or the linear regression. -/
def Fitted (h : Handler K) (D : Defaults K) (ms : List (Name × UserModel K)) (s : Name) (f : List (Col K) → Col K → Predictor K) : Prop :=
  (∀ m, (s, m) ∈ ms → f = m.fit) ∧ ((∀ m, (s, m) ∉ ms) → (s ∈ h.disc → f = D.logistic) ∧ (s ∉ h.disc → f = D.linear))

/-- The error term of a numeric variable: the given values, otherwise the residuals of training; `σ` is the shuffle. -/
structure ErrorTerm (h : Handler K) (le : List (Label × Values K)) (f : List (Col K) → Col K → Predictor K) (σ : Nat → Nat) (s : Name)
    (e : Col K) : Prop where
  given : ∀ v, (Label.str s, v) ∈ le → ∀ r, σ r < h.rows → v.cells[σ r]? = some (some (e r))
  root : (∀ v, (Label.str s, v) ∉ le) → graphParents h s = [] → ∀ r, e r = dataOf h s (σ r)
  residual : (∀ v, (Label.str s, v) ∉ le) → graphParents h s ≠ [] → ∀ r, e r = dataOf h s (σ r) -
    f ((graphParents h s).map (dataOf h)) (dataOf h s) ((graphParents h s).map (dataOf h)) (σ r)

/-- The equation of a numeric variable with error term `e`. -/
structure NumericEq (h : Handler K) (lm : List (Label × Info K)) (f : List (Col K) → Col K → Predictor K) (g : Name → Col K) (s : Name)
    (e : Col K) : Prop where
  unchanged_root : (∀ i, (Label.str s, i) ∉ lm) → graphParents h s = [] → ∀ r, g s r = e r
  unchanged : (∀ i, (Label.str s, i) ∉ lm) → graphParents h s ≠ [] → ∀ r, g s r =
    f ((graphParents h s).map (dataOf h)) (dataOf h s) ((graphParents h s).map g) r + e r
  cut : ∀ i, (Label.str s, i) ∈ lm → i.parentNames = some (some []) → ∀ r, g s r = e r
  coef : ∀ i ps b, (Label.str s, i) ∈ lm → i.parentNames = some (some (ps.map Label.str)) → ps ≠ [] → i.coef = some (some b) →
    ∀ r, g s r = ((b.zip ps).map (fun q => q.1 * g q.2 r)).sum + e r
  model : ∀ i ps m, (Label.str s, i) ∈ lm → i.parentNames = some (some (ps.map Label.str)) → ps ≠ [] → i.coef = none →
    i.model = some (some m) → ∀ r, g s r = m.predict (ps.map g) r + e r

/-- The equation of a discrete variable. -/
structure DiscreteEq (h : Handler K) (lm : List (Label × Info K)) (f : List (Col K) → Col K → Predictor K) (g : Name → Col K) (s : Name) :
    Prop where
  unchanged_root : (∀ i, (Label.str s, i) ∉ lm) → graphParents h s = [] → ∀ r, g s r = dataOf h s r
  unchanged : (∀ i, (Label.str s, i) ∉ lm) → graphParents h s ≠ [] → ∀ r, g s r =
    f ((graphParents h s).map (dataOf h)) (dataOf h s) ((graphParents h s).map g) r
  cut : ∀ i, (Label.str s, i) ∈ lm → i.parentNames = some (some []) → ∀ r, g s r = dataOf h s r
  coef : ∀ i ps b, (Label.str s, i) ∈ lm → i.parentNames = some (some (ps.map Label.str)) → ps ≠ [] → i.coef = some (some b) →
    ∀ r, g s r = if 0 ≤ ((b.zip ps).map (fun q => q.1 * g q.2 r)).sum then 1 else 0
  model : ∀ i ps m, (Label.str s, i) ∈ lm → i.parentNames = some (some (ps.map Label.str)) → ps ≠ [] → i.coef = none →
    i.model = some (some m) → ∀ r, g s r = m.predict (ps.map g) r

/-- The edges of the changed graph, between positions of names. -/
def NamedEdge (h : Handler K) (lm : List (Label × Info K)) (a b : Nat) : Prop :=
  ∃ p t, h.names[a]? = some p ∧ h.names[b]? = some t ∧
    ((∃ i ps, (Label.str t, i) ∈ lm ∧ i.parentNames = some (some ps) ∧ Label.str p ∈ ps) ∨
      ((∀ i, (Label.str t, i) ∉ lm) ∧ h.graph b a ≠ 0))

theorem names_eq_map (h : Handler K) : h.names = (List.range h.names.length).map h.nm := by
  refine List.ext_getElem (by simp) fun k h1 h2 => ?_
  rw [List.getElem_map, List.getElem_range]
  unfold Handler.nm
  rw [List.getD_eq_getElem _ _ h1]

theorem graphParents_nm (hn : h.names.Nodup) {v : Nat} (hv : v < h.names.length) :
    graphParents h (h.nm v) = (Simulator.graphParents (byIndex h) v).map h.nm := by
  unfold graphParents
  conv_lhs => rw [names_eq_map h]
  rw [List.filter_map]
  congr 1
  unfold Simulator.graphParents
  refine List.filter_congr fun j hj => ?_
  rw [← names_eq_map h]
  have hi : h.names.idxOf (h.nm j) = j := index_nm hn (List.mem_range.1 hj)
  have hi' : h.names.idxOf (h.nm v) = v := index_nm hn hv
  simp only [Function.comp_apply, hi, hi']
  rfl

theorem graphParents_mem {v j : Nat} (hj : j ∈ Simulator.graphParents (byIndex h) v) : j < h.names.length :=
  List.mem_range.1 (List.mem_filter.1 hj).1

theorem fitted_fitFor {ms : List (Name × UserModel K)} (hms : (ms.map Prod.fst).Nodup) (D : Defaults K) (s : Name) :
    Fitted h D ms s (fitFor h D ms s) := by
  refine ⟨fun m hm => ?_, fun hno => ?_⟩
  · unfold fitFor
    rw [look_of_mem hms hm]
  · have hl : look ms s = none := look_none fun hm => by
      obtain ⟨e, he, rfl⟩ := List.mem_map.1 hm
      exact hno e.2 he
    unfold fitFor
    rw [hl]
    exact ⟨fun h' => by simp [h'], fun h' => by simp [h']⟩

theorem changes_from {l : List (Label × Info K)} {r : List (Name × Changed K)}
    (hf : List.Forall₂ (fun e c => checkChange h e.1 e.2 = .ok c) l r) {s : Name} {c : Changed K} (hm : (s, c) ∈ r) :
    ∃ i, (Label.str s, i) ∈ l ∧ checkChange h (.str s) i = .ok (s, c) := by
  induction hf with
  | nil => cases hm
  | @cons e c' _ _ hc _ ih =>
    rcases List.mem_cons.1 hm with h' | h'
    · subst h'
      have := (checkChange_ok hc).1
      exact ⟨e.2, by rw [← this]; simp, by rw [← this]; exact hc⟩
    · obtain ⟨i, h1, h2⟩ := ih h'
      exact ⟨i, by simp [h1], h2⟩

theorem look_changes_none {l : List (Label × Info K)} {r : List (Name × Changed K)}
    (hf : List.Forall₂ (fun e c => checkChange h e.1 e.2 = .ok c) l r) {s : Name} : look r s = none ↔ ∀ i, (Label.str s, i) ∉ l := by
  constructor
  · intro hl i hi
    obtain ⟨c, h1, -⟩ := changes_mem hf hi
    unfold look at hl
    rw [Option.map_eq_none_iff, List.find?_eq_none] at hl
    exact hl _ h1 (by simp)
  · intro hno
    refine look_none fun hm => ?_
    obtain ⟨e, he, rfl⟩ := List.mem_map.1 hm
    obtain ⟨i, h1, -⟩ := changes_from hf (s := e.1) (c := e.2) he
    exact hno i h1

theorem getElem?_nm {v : Nat} {s : Name} : h.names[v]? = some s ↔ v < h.names.length ∧ s = h.nm v := by
  rw [List.getElem?_eq_some_iff]
  constructor
  · rintro ⟨hv, rfl⟩
    exact ⟨hv, by unfold Handler.nm; rw [List.getD_eq_getElem _ _ hv]⟩
  · rintro ⟨hv, rfl⟩
    exact ⟨hv, by unfold Handler.nm; rw [List.getD_eq_getElem _ _ hv]⟩

theorem edge_iff (hn : h.names.Nodup) {l : List (Label × Info K)} {r : List (Name × Changed K)} (hd : IsDict l)
    (hr : checkChangeList h l = .ok r) (a b : Nat) :
    Edge h.names.length (Simulator.changedGraph h.graph (changesByIndex h r)) 0 a b ↔ NamedEdge h l a b := by
  have hf := checkChangeList_ok hr
  have hA := accepted_of_checks hd hr
  unfold Edge NamedEdge
  constructor
  · rintro ⟨ha, hb, hlt⟩
    refine ⟨h.nm a, h.nm b, getElem?_nm.2 ⟨ha, rfl⟩, getElem?_nm.2 ⟨hb, rfl⟩, ?_⟩
    unfold Simulator.changedGraph changesByIndex at hlt
    rw [if_pos hb] at hlt
    cases hl : look r (h.nm b) with
    | none =>
      rw [hl] at hlt
      exact .inr ⟨(look_changes_none hf).1 hl, abs_pos.1 hlt⟩
    | some c =>
      rw [hl] at hlt
      simp only [Option.map_some] at hlt
      obtain ⟨i, hi, hc⟩ := changes_from hf (look_mem hl)
      obtain ⟨-, -, hps, -, -, hpn, -⟩ := checkChange_ok hc
      refine .inl ⟨i, _, hi, hpn, ?_⟩
      by_cases hm : a ∈ c.parents.map h.index
      · obtain ⟨p, hp, rfl⟩ := List.mem_map.1 hm
        rw [nm_index (hps p hp)]
        exact List.mem_map_of_mem hp
      · rw [if_neg hm] at hlt
        simp at hlt
  · rintro ⟨p, t, hp, ht, hor⟩
    obtain ⟨ha, rfl⟩ := getElem?_nm.1 hp
    obtain ⟨hb, rfl⟩ := getElem?_nm.1 ht
    refine ⟨ha, hb, ?_⟩
    unfold Simulator.changedGraph changesByIndex
    rw [if_pos hb]
    rcases hor with ⟨i, ps, hi, hpn, hmem⟩ | ⟨hno, h0⟩
    · obtain ⟨c, hc, hcc⟩ := changes_mem hf hi
      obtain ⟨-, -, hps, -, -, hpn', -⟩ := checkChange_ok hcc
      rw [look_of_mem hA.keys hc]
      simp only [Option.map_some]
      rw [hpn] at hpn'
      simp only [Option.some.injEq] at hpn'
      subst hpn'
      obtain ⟨q, hq, hqe⟩ := List.mem_map.1 hmem
      simp only [Label.str.injEq] at hqe
      have : a ∈ c.parents.map h.index := List.mem_map.2 ⟨q, hq, by rw [hqe, index_nm hn ha]⟩
      rw [if_pos this]
      simp
    · rw [(look_changes_none hf).2 hno]
      exact abs_pos.2 h0

/-- With distinct names, the computation with names is the computation with column numbers. -/
theorem run_nm (hn : h.names.Nodup) (D : Defaults K) (ms : List (Name × UserModel K)) {le : List (Label × Values K)}
    {lm : List (Label × Info K)} {ce : List (Name × Values K)} {cm : List (Name × Changed K)} (hd : IsDict lm)
    (he : checkExogList h le = .ok ce) (hm : checkChangeList h lm = .ok cm) (hL : ∀ e ∈ ce, e.2.isList = false) (sh : Option (Nat → Nat)) :
    match Simulator.run (byIndex h) (fun v => fitFor h D ms (h.nm v)) (exogByIndex h ce) (changesByIndex h cm) sh with
      | .error e => run D (some (h, ms)) (.dict le) (.dict lm) sh = .error (toErr e)
      | .ok sI => ∃ s, run D (some (h, ms)) (.dict le) (.dict lm) sh = .ok s ∧ SameColumns h s sI := by
  have hA := accepted_of_checks hd hm
  unfold run Simulator.run
  simp only [checkExog, he, checkChanges, hm]
  unfold getOrder Simulator.getOrder
  rw [changed_fold hn cm h.graph hA]
  show (match (match (match Simulator.calcOrder (Simulator.changedGraph h.graph (changesByIndex h cm)) h.names.length with
    | none => Except.error Simulator.Err.valueError
    | some o => Except.ok o) with
    | .error e => Except.error e
    | .ok o => Simulator.simLoop (byIndex h) (fun v => fitFor h D ms (h.nm v)) (exogByIndex h ce) (changesByIndex h cm) sh o
      (fun _ => none)) with
    | .error e => _
    | .ok sI => _)
  cases hc : Simulator.calcOrder (Simulator.changedGraph h.graph (changesByIndex h cm)) h.names.length with
  | none => rfl
  | some o =>
    exact simLoop_nm hn D ms hL hA sh o _ _ (fun v hv => ((Simulator.calcOrder_some _ _ _ hc).1.2 v).1 hv) fun v _ => rfl

theorem exog_look {le : List (Label × Values K)} {ce : List (Name × Values K)} (hd : IsDict le) (he : checkExogList h le = .ok ce) (s : Name) :
    (∀ v, (Label.str s, v) ∈ le → look ce s = some v) ∧ ((∀ v, (Label.str s, v) ∉ le) → look ce s = none) := by
  have hle := checkExogList_ok he
  have hk : (ce.map Prod.fst).Nodup := by
    unfold IsDict at hd
    rw [hle, List.map_map] at hd
    have : (Prod.fst ∘ fun e : Name × Values K => (Label.str e.1, e.2)) = Label.str ∘ Prod.fst := rfl
    rw [this, ← List.map_map] at hd
    exact List.Nodup.of_map _ hd
  constructor
  · intro v hv
    rw [hle] at hv
    obtain ⟨e, he, h1⟩ := List.mem_map.1 hv
    simp only [Prod.mk.injEq, Label.str.injEq] at h1
    obtain ⟨rfl, rfl⟩ := h1
    exact look_of_mem hk he
  · intro hno
    refine look_none fun hm => ?_
    obtain ⟨e, he, rfl⟩ := List.mem_map.1 hm
    exact hno e.2 (by rw [hle]; exact List.mem_map.2 ⟨e, he, rfl⟩)

theorem known_changes {cm : List (Name × Changed K)} (hA : Accepted h cm) : Simulator.Known h.names.length (changesByIndex h cm) := by
  intro v c hc p hp
  unfold changesByIndex at hc
  split at hc
  · cases hl : look cm (h.nm v) with
    | none => rw [hl] at hc; cases hc
    | some c' =>
      rw [hl] at hc
      simp only [Option.map_some, Option.some.injEq] at hc
      subst hc
      obtain ⟨q, hq, rfl⟩ := List.mem_map.1 hp
      exact index_lt (hA.parents _ (look_mem hl) q hq)
  · cases hc

theorem coefModel_names (b : List K) (ps : List Name) (g : Name → Col K) (r : Nat) :
    ((b.zip (ps.map g)).map (fun p => p.1 * p.2 r)).sum = ((b.zip ps).map (fun q => q.1 * g q.2 r)).sum := by
  rw [List.zip_map_right, List.map_map]
  rfl

/-- **C205.** For distinct names, values given as arrays and well-formed arguments, `run` raises `ValueError` if the changed graph has a
cycle, and otherwise returns a column for every name such that every variable satisfies its equation, with the parents, coefficients,
models and error terms that were given under its name. -/
theorem C205_run_partial (hn : h.names.Nodup) (D : Defaults K) {ms : List (Name × UserModel K)} (hms : (ms.map Prod.fst).Nodup)
    {le : List (Label × Values K)} {lm : List (Label × Info K)} (hde : IsDict le) (hdm : IsDict lm) (hE : ExogOk h le)
    (hL : ∀ e ∈ le, e.2.isList = false) (hM : ∀ e ∈ lm, ChangeOk h e) (sh : Option (Nat → Nat)) :
    (Acyclic (NamedEdge h lm) → ∃ (out : Name → Option (Col K)) (g : Name → Col K),
      run D (some (h, ms)) (.dict le) (.dict lm) sh = .ok out ∧ (∀ s ∈ h.names, out s = some (g s)) ∧
      ∀ s ∈ h.names, ∃ f, Fitted h D ms s f ∧ (s ∈ h.disc → DiscreteEq h lm f g s) ∧
        (s ∉ h.disc → ∃ e, ErrorTerm h le f (sh.getD id) s e ∧ NumericEq h lm f g s e)) ∧
    (¬ Acyclic (NamedEdge h lm) → run D (some (h, ms)) (.dict le) (.dict lm) sh = .error .value) := by
  obtain ⟨ce, hce⟩ := (checkExogList_iff h le).2 hE
  obtain ⟨cm, hcm⟩ := (checkChangeList_iff h lm).2 hM
  have hA := accepted_of_checks hdm hcm
  have hf := checkChangeList_ok hcm
  have hk := known_changes hA
  have hL' : ∀ e ∈ ce, e.2.isList = false := fun e he => hL (Label.str e.1, e.2) (by
    rw [checkExogList_ok hce]; exact List.mem_map.2 ⟨e, he, rfl⟩)
  have hedge : Acyclic (Edge h.names.length (Simulator.changedGraph h.graph (changesByIndex h cm)) 0) ↔ Acyclic (NamedEdge h lm) := by
    have : Edge h.names.length (Simulator.changedGraph h.graph (changesByIndex h cm)) 0 = NamedEdge h lm := by
      funext a b
      exact propext (edge_iff hn hdm hcm a b)
    rw [this]
  have hiff := Simulator.C45_accepts_iff (byIndex h) (fun v => fitFor h D ms (h.nm v)) (exogByIndex h ce) (changesByIndex h cm) sh hk
  have hrun := run_nm hn D ms hdm hce hcm hL' sh
  refine ⟨fun hac => ?_, fun hac => ?_⟩
  swap
  · rw [hiff.2 (mt hedge.1 hac)] at hrun
    exact hrun
  obtain ⟨sI, hsI⟩ := hiff.1 (hedge.2 hac)
  rw [hsI] at hrun
  obtain ⟨out, hout, hsame⟩ := hrun
  obtain ⟨gI, hg1, hg2⟩ := Simulator.C45_equations (byIndex h) _ _ _ sh hk sI hsI
  let g : Name → Col K := fun s => gI (h.index s)
  have hgn : ∀ l : List Nat, (∀ j ∈ l, j < h.names.length) → (l.map h.nm).map g = l.map gI := fun l hl => by
    rw [List.map_map]
    exact List.map_congr_left fun j hj => by simp only [g, Function.comp_apply, index_nm hn (hl j hj)]
  refine ⟨out, g, hout, fun s hs => ?_, fun s hs => ⟨fitFor h D ms s, fitted_fitFor hms D s, ?_⟩⟩
  · rw [← nm_index hs, hsame _ (index_lt hs), hg1 _ (index_lt hs)]
    simp only [g, index_nm hn (index_lt hs)]
  have hv := index_lt hs
  have heq := hg2 (h.index s) hv
  have hgp : graphParents h s = (Simulator.graphParents (byIndex h) (h.index s)).map h.nm := by
    rw [← graphParents_nm hn hv, nm_index hs]
  have hgp0 : graphParents h s = [] ↔ Simulator.graphParents (byIndex h) (h.index s) = [] := by rw [hgp, List.map_eq_nil_iff]
  have hgg : (graphParents h s).map g = (Simulator.graphParents (byIndex h) (h.index s)).map gI := by
    rw [hgp]; exact hgn _ fun j hj => graphParents_mem hj
  have hgd : (graphParents h s).map (dataOf h) = (Simulator.graphParents (byIndex h) (h.index s)).map (byIndex h).data := by
    rw [hgp, List.map_map]
    exact List.map_congr_left fun j hj => by
      show h.data (h.index (h.nm j)) = h.data j
      rw [index_nm hn (graphParents_mem hj)]
  have hcme : ∀ i, (Label.str s, i) ∈ lm → ∃ c, checkChange h (.str s) i = .ok (s, c) ∧
      changesByIndex h cm (h.index s) = some ⟨c.parents.map h.index, c.model.getD (fun _ _ => 0)⟩ := fun i hi => by
    obtain ⟨c, h1, h2⟩ := changes_mem hf hi
    refine ⟨c, h2, ?_⟩
    unfold changesByIndex
    rw [if_pos hv, nm_index hs, look_of_mem hA.keys h1]
    rfl
  have hcmn : (∀ i, (Label.str s, i) ∉ lm) → changesByIndex h cm (h.index s) = none := fun hno => by
    unfold changesByIndex
    rw [if_pos hv, nm_index hs, (look_changes_none hf).2 hno]
    rfl
  have hpc : ∀ {i c ps}, checkChange h (.str s) i = .ok (s, c) → i.parentNames = some (some (ps.map Label.str)) → c.parents = ps := by
    intro i c ps h1 h2
    have h3 := (checkChange_ok h1).2.2.2.2.2.1
    rw [h2] at h3
    simp only [Option.some.injEq] at h3
    exact ((List.map_injective_iff.2 fun a b e => by injection e) h3).symm
  have hpm : ∀ ps : List Name, (ps.map h.index).map gI = ps.map g := fun ps => by rw [List.map_map]; rfl
  have hdisc : (byIndex h).discrete (h.index s) = decide (s ∈ h.disc) := by
    show decide (h.nm (h.index s) ∈ h.disc) = _
    rw [nm_index hs]
  unfold Simulator.Equation at heq
  refine ⟨fun hsd => ?_, fun hsd => ⟨Simulator.usedError (byIndex h) (fun v => fitFor h D ms (h.nm v)) (exogByIndex h ce) sh (h.index s), ?_, ?_⟩⟩
  · simp only [hdisc, hsd, decide_true, if_true, add_zero] at heq
    refine ⟨fun hno h0 r => ?_, fun hno h0 r => ?_, fun i hi hp r => ?_, fun i ps b hi hp hne hb r => ?_, fun i ps m hi hp hne hb hm r => ?_⟩
    · rw [hcmn hno] at heq
      exact heq.1 (hgp0.1 h0) trivial r
    · rw [hcmn hno] at heq
      have := heq.2.2 (mt hgp0.2 h0) r
      rw [nm_index hs] at this
      rw [hgd, hgg]
      exact this
    all_goals
      obtain ⟨c, hc, hci⟩ := hcme i hi
      rw [hci] at heq
      simp only at heq
    · have : c.parents = [] := hpc hc hp
      exact heq.1 (by rw [this]; rfl) trivial r
    · have hcp : c.parents = ps := hpc hc hp
      have hcm' := (checkChange_ok hc).2.2.2.2.2.2 (by rw [hcp]; exact hne) b hb
      rw [if_pos hsd] at hcm'
      have := heq.2.2 (by rw [hcp]; simpa using hne) r
      rw [hcm', hcp, hpm] at this
      refine this.trans ?_
      show (if 0 ≤ ((b.zip (ps.map g)).map (fun p => p.1 * p.2 r)).sum then (1 : K) else 0) = _
      rw [coefModel_names]
    · have hcp : c.parents = ps := hpc hc hp
      have hcm' := checkChange_model hc (by rw [hcp]; exact hne) hb hm
      have := heq.2.2 (by rw [hcp]; simpa using hne) r
      rw [hcm', hcp, hpm] at this
      exact this
  · refine ⟨fun v hv' r hr => ?_, fun hno h0 r => ?_, fun hno h0 r => ?_⟩
    · have hl := (exog_look hde hce s).1 v hv'
      obtain ⟨s', hs', -, -, hnn, -, hlen⟩ := hE _ hv'
      simp only at hlen hnn
      have hce' : exogByIndex h ce (h.index s) = some v.col := by
        unfold exogByIndex
        rw [if_pos hv, nm_index hs, hl]
        rfl
      unfold Simulator.usedError
      rw [hce', Option.getD_some]
      have hlt : sh.getD id r < v.cells.length := by rw [hlen]; exact hr
      rw [List.getElem?_eq_getElem hlt]
      unfold Values.col
      rw [List.getD_eq_getElem _ _ hlt]
      obtain ⟨x, hx⟩ := Option.ne_none_iff_exists'.1 (hnn _ (List.getElem_mem hlt))
      rw [hx]
      rfl
    all_goals
      have hce' : exogByIndex h ce (h.index s) = none := by
        unfold exogByIndex
        rw [if_pos hv, nm_index hs, (exog_look hde hce s).2 hno]
        rfl
      unfold Simulator.usedError Simulator.trainResidual
      rw [hce', Option.getD_none]
    · rw [if_pos (hgp0.1 h0)]
      rfl
    · rw [if_neg (mt hgp0.2 h0), hgd]
      show dataOf h s _ - fitFor h D ms (h.nm (h.index s)) _ _ _ _ = _
      rw [nm_index hs]
      rfl
  · simp only [hdisc, hsd, decide_false, Bool.false_eq_true, if_false] at heq
    refine ⟨fun hno h0 r => ?_, fun hno h0 r => ?_, fun i hi hp r => ?_, fun i ps b hi hp hne hb r => ?_, fun i ps m hi hp hne hb hm r => ?_⟩
    · rw [hcmn hno] at heq
      exact heq.2.1 (hgp0.1 h0) trivial r
    · rw [hcmn hno] at heq
      have := heq.2.2 (mt hgp0.2 h0) r
      rw [nm_index hs] at this
      rw [hgd, hgg]
      exact this
    all_goals
      obtain ⟨c, hc, hci⟩ := hcme i hi
      rw [hci] at heq
      simp only at heq
    · have : c.parents = [] := hpc hc hp
      exact heq.2.1 (by rw [this]; rfl) trivial r
    · have hcp : c.parents = ps := hpc hc hp
      have hcm' := (checkChange_ok hc).2.2.2.2.2.2 (by rw [hcp]; exact hne) b hb
      rw [if_neg hsd] at hcm'
      have := heq.2.2 (by rw [hcp]; simpa using hne) r
      rw [hcm', hcp, hpm] at this
      refine this.trans ?_
      show ((b.zip (ps.map g)).map (fun p => p.1 * p.2 r)).sum + _ = _
      rw [coefModel_names]
    · have hcp : c.parents = ps := hpc hc hp
      have hcm' := checkChange_model hc (by rw [hcp]; exact hne) hb hm
      have := heq.2.2 (by rw [hcp]; simpa using hne) r
      rw [hcm', hcp, hpm] at this
      exact this

/-- No dictionary and an empty dictionary are the same. -/
theorem C205_none (D : Defaults K) (st : State K) (exog : DictArg (Values K)) (models : DictArg (Info K)) (sh : Option (Nat → Nat)) :
    run D st .none models sh = run D st (.dict []) models sh ∧ run D st exog .none sh = run D st exog (.dict []) sh := by
  constructor <;> cases st <;> rfl

/-- **C205.** Arguments that are not well-formed are refused with an exception: nothing is simulated. -/
theorem C205_refuses (D : Defaults K) (ms : List (Name × UserModel K)) (le : List (Label × Values K)) (lm : List (Label × Info K))
    (sh : Option (Nat → Nat)) (hbad : ¬ ExogOk h le ∨ ∃ e ∈ lm, ¬ ChangeOk h e) :
    ∃ e, run D (some (h, ms)) (.dict le) (.dict lm) sh = .error e := by
  unfold run
  simp only [checkExog, checkChanges]
  cases he : checkExogList h le with
  | error e => exact ⟨e, rfl⟩
  | ok ce =>
    cases hm : checkChangeList h lm with
    | error e => exact ⟨e, rfl⟩
    | ok cm =>
      rcases hbad with hb | ⟨e, h1, h2⟩
      · exact absurd ((checkExogList_iff h le).1 ⟨ce, he⟩) hb
      · exact absurd ((checkChangeList_iff h lm).1 ⟨cm, hm⟩ e h1) h2

/-- A model of the right kind for a known variable. -/
def ModelOk (h : Handler K) (e : Label × UserModel K) : Prop :=
  ∃ t, e.1 = .str t ∧ t ∈ h.names ∧ (t ∈ h.disc → e.2.classifier = true ∧ e.2.hasProba = true) ∧ (t ∉ h.disc → e.2.regressor = true)

theorem checkModelList_iff (h : Handler K) : ∀ (l : List (Label × UserModel K)) (r : List (Name × UserModel K)),
    checkModelList h l = .ok r ↔ l = r.map (fun e => (Label.str e.1, e.2)) ∧ ∀ e ∈ l, ModelOk h e
  | [], r => by
    simp only [checkModelList, Except.ok.injEq]
    constructor
    · rintro rfl; simp
    · rintro ⟨h1, -⟩
      exact (List.map_eq_nil_iff.1 h1.symm).symm
  | (.int i, m) :: l, r => by
    simp only [checkModelList]
    refine ⟨fun e => (by cases e), fun e => ?_⟩
    obtain ⟨t, ht, -⟩ := e.2 _ List.mem_cons_self
    cases ht
  | (.str s, m) :: l, r => by
    have ih := checkModelList_iff h l
    simp only [checkModelList]
    by_cases hs : s ∈ h.names
    · rw [if_neg (not_not.2 hs)]
      have hk := checkModel_iff m (decide (s ∈ h.disc))
      simp only [decide_eq_true_eq, decide_eq_false_iff_not] at hk
      cases hc : checkModel m (decide (s ∈ h.disc)) with
      | error e =>
        simp only
        refine ⟨fun e => (by cases e), fun e => ?_⟩
        obtain ⟨t, ht, -, h1, h2⟩ := e.2 _ List.mem_cons_self
        cases ht
        rw [hk.2 ⟨h1, h2⟩] at hc
        cases hc
      | ok u =>
        simp only
        obtain ⟨h1, h2⟩ := hk.1 hc
        constructor
        · intro e
          split at e
          · cases e
          · rename_i r' hr'
            simp only [Except.ok.injEq] at e
            subst e
            obtain ⟨h3, h4⟩ := (ih _).1 hr'
            refine ⟨by rw [h3]; rfl, fun e he => ?_⟩
            rcases List.mem_cons.1 he with rfl | he
            · exact ⟨s, rfl, hs, h1, h2⟩
            · exact h4 e he
        · rintro ⟨h3, h4⟩
          cases r with
          | nil => cases h3
          | cons a r =>
            simp only [List.map_cons, List.cons.injEq, Prod.mk.injEq, Label.str.injEq] at h3
            obtain ⟨⟨rfl, rfl⟩, h5⟩ := h3
            rw [(ih r).2 ⟨h5, fun e he => h4 e (by simp [he])⟩]
    · rw [if_pos hs]
      refine ⟨fun e => (by cases e), fun e => ?_⟩
      obtain ⟨t, ht, h1, -⟩ := e.2 _ List.mem_cons_self
      cases ht
      exact absurd h1 hs

/-- **C205.** `train` accepts exactly acyclic graphs with models of the right kind for known variables, and keeps every model under its
name. -/
theorem C205_train (h : Handler K) (l : List (Label × UserModel K)) (st : State K) : train h (.dict l) = .ok st ↔
    Acyclic (Edge h.names.length h.graph 0) ∧ (∀ e ∈ l, ModelOk h e) ∧
      ∃ ms, st = some (h, ms) ∧ l = ms.map (fun e => (Label.str e.1, e.2)) := by
  unfold train
  rw [← Simulator.calcOrder_acyclic]
  cases Simulator.calcOrder h.graph h.names.length with
  | none => simp
  | some o =>
    simp only [checkModels]
    cases hc : checkModelList h l with
    | error e =>
      simp only
      refine ⟨fun e => (by cases e), ?_⟩
      rintro ⟨-, h1, ms, -, h2⟩
      rw [(checkModelList_iff h l ms).2 ⟨h2, h1⟩] at hc
      cases hc
    | ok ms =>
      obtain ⟨h1, h2⟩ := (checkModelList_iff h l ms).1 hc
      simp only [Except.ok.injEq]
      constructor
      · rintro rfl
        exact ⟨⟨o, rfl⟩, h2, ms, rfl, h1⟩
      · rintro ⟨-, -, ms', rfl, h3⟩
        rw [(checkModelList_iff h l ms').2 ⟨h3, h2⟩] at hc
        simp only [Except.ok.injEq] at hc
        rw [hc]

theorem simLoop_reaches (h : Handler K) (D : Defaults K) (ms : List (Name × UserModel K)) (ce : List (Name × Values K))
    (cm : List (Name × Changed K)) (sh : Option (Nat → Nat)) : ∀ (o : List Name) (sim out : Name → Option (Col K)),
    simLoop h D ms ce cm sh o sim = .ok out → ∀ s ∈ o, ∃ sim' c, simVar h D ms ce cm sh sim' s = .ok c
  | [], _, _, _, s, hs => by cases hs
  | t :: o, sim, out, hr, s, hs => by
    simp only [simLoop] at hr
    split at hr
    · cases hr
    · rename_i c hc
      rcases List.mem_cons.1 hs with rfl | hs
      · exact ⟨_, _, hc⟩
      · exact simLoop_reaches h D ms ce cm sh o _ out hr s hs

/-- **C205 (violated).** Values for an error term given as a Python list are accepted by the check of the arguments, but no run with them
returns data. -/
theorem C205_lists_fail (D : Defaults K) (ms : List (Name × UserModel K)) (le : List (Label × Values K)) (models : DictArg (Info K))
    (sh : Option (Nat → Nat)) (hd : IsDict le) (hbad : ∃ e ∈ le, e.2.isList = true) (out : Name → Option (Col K)) :
    run D (some (h, ms)) (.dict le) models sh ≠ .ok out := by
  intro hr
  unfold run at hr
  simp only [checkExog] at hr
  cases he : checkExogList h le with
  | error e => rw [he] at hr; cases hr
  | ok ce =>
    rw [he] at hr
    simp only at hr
    cases hm : checkChanges h models with
    | error e => rw [hm] at hr; cases hr
    | ok cm =>
      rw [hm] at hr
      simp only at hr
      cases ho : getOrder h cm with
      | error e => rw [ho] at hr; cases hr
      | ok o =>
        rw [ho] at hr
        simp only at hr
        obtain ⟨⟨k, v⟩, hmem, hlist⟩ := hbad
        obtain ⟨s, hs, hsn, -⟩ := (checkExogList_iff h le).1 ⟨ce, he⟩ _ hmem
        simp only at hs hlist
        subst hs
        have hl := (exog_look hd he s).1 v hmem
        have hso : s ∈ o := by
          unfold getOrder at ho
          split at ho
          · cases ho
          · rename_i oi hoi
            simp only [Except.ok.injEq] at ho
            subst ho
            refine List.mem_map.2 ⟨h.index s, ((Simulator.calcOrder_some _ _ _ hoi).1.2 _).2 (index_lt hsn), nm_index hsn⟩
        obtain ⟨sim', c, hc⟩ := simLoop_reaches h D ms ce cm sh o _ out hr s hso
        unfold simVar errorOf at hc
        rw [hl] at hc
        simp only [hlist, if_true] at hc
        cases sh <;> cases hc

/-- **C205 (violated).** `run` before `train` is documented to raise `RuntimeError`; it raises `AttributeError`. -/
theorem C205_untrained (D : Defaults K) (exog : DictArg (Values K)) (models : DictArg (Info K)) (sh : Option (Nat → Nat)) :
    run D none exog models sh = .error .attribute ∧ run D none exog models sh ≠ .error .runtime :=
  ⟨rfl, by intro e; cases e⟩

/-! ### Examples -/

/-- Two variables `a → b`. -/
def exHandler : Handler ℚ := ⟨[['a'], ['b']], [], fun i j => if i = 1 ∧ j = 0 then 2 else 0, fun v r => if v = 0 then r else 3 * r, 2⟩

/-- Default models that predict the first parent. -/
def exDefaults : Defaults ℚ := ⟨fun _ _ X r => (X.headD (fun _ => 0)) r, fun _ _ X r => (X.headD (fun _ => 0)) r⟩

/-- Values 5, 7 for the error term of `a`. -/
def exExog : List (Label × Values ℚ) := [(.str ['a'], ⟨false, [some 5, some 7]⟩)]

/-- `b` is computed as ten times `a`. -/
def exModels : List (Label × Info ℚ) := [(.str ['b'], ⟨true, some (some [.str ['a']]), some (some [10]), none⟩)]

/-- The simulated value of a variable in a row. -/
def exValue (s : Name) (r : Nat) (x : Except Err (Name → Option (Col ℚ))) : Option ℚ := x.toOption.bind (fun out => (out s).map (fun c => c r))

/-- The hypotheses of `C205_run_partial` hold, and the run gives `a = 5, 7`. -/
example : exHandler.names.Nodup ∧ IsDict exExog ∧ IsDict exModels ∧ ExogOk exHandler exExog ∧ (∀ e ∈ exModels, ChangeOk exHandler e) := by
  refine ⟨by decide, by unfold IsDict; decide, by unfold IsDict; decide, ?_, ?_⟩
  · intro e he
    simp only [exExog, List.mem_singleton] at he
    subst he
    exact ⟨_, rfl, by decide, by decide, by decide, by decide, rfl⟩
  · intro e he
    simp only [exModels, List.mem_singleton] at he
    subst he
    exact ⟨rfl, _, rfl, by decide, [['a']], rfl, by decide, fun _ => .inl ⟨[10], rfl, rfl⟩⟩

example : exValue ['a'] 1 (run exDefaults (some (exHandler, [])) (.dict exExog) (.dict exModels) none) = some 7 := by decide +kernel

/-- `b = 10 · 7 + (3 - 1)` in row 1. -/
example : exValue ['b'] 1 (run exDefaults (some (exHandler, [])) (.dict exExog) (.dict exModels) none) = some 72 := by decide +kernel

/-- The same values as a list: no data. -/
example : exValue ['a'] 1 (run exDefaults (some (exHandler, [])) (.dict [(.str ['a'], ⟨true, [some 5, some 7]⟩)]) .none none) = none := by
  decide +kernel

end Verif.SimNames
