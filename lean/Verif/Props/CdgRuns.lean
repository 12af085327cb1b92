import Verif.Props.Cdg

/-!
C85, written out: the equations satisfied by the result of `generate` for arbitrary interventions and models.
-/
set_option autoImplicit false
set_option linter.unusedSectionVars false
namespace Verif.Cdg

variable {K : Type} [Field K]
variable (fitC fitE : List (Col K) → Col K → Predictor K)

/-! ### Specification -/

/-- A dictionary: no key twice. -/
def IsDict {A : Type} (d : List (Nat × A)) : Prop := (d.map (fun e => e.1)).Nodup

/-- The value stored under a key. -/
def Has {A : Type} (d : List (Nat × A)) (v : Nat) (x : A) : Prop := (v, x) ∈ d

/-- The key is absent. -/
def Lacks {A : Type} (d : List (Nat × A)) (v : Nat) : Prop := ∀ x, (v, x) ∉ d

/-- `e` is the error column of a variable with data `y` and prediction `p`: the user's exogenous values if given, otherwise
data minus prediction, or NaN for a categorical variable. -/
def IsError (exog : List (Nat × Col K)) (v : Nat) (cat : Bool) (y p e : Col K) : Prop :=
  Has exog v e ∨ (Lacks exog v ∧ cat = true ∧ ∀ r, e r = none) ∨ (Lacks exog v ∧ cat = false ∧ e = csub y p)

/-- `c` is the column of a variable that is generated from the columns `xs` with error `e`. -/
def Generated (endog : List (Nat × Col K)) (um : Option (UserModel K)) (v : Nat) (cat : Bool) (m : Predictor K)
    (xs : List (Col K)) (e c : Col K) : Prop :=
  Has endog v c ∨ (Lacks endog v ∧
    ((∃ u, um = some u ∧ c = u xs e) ∨ (um = none ∧ cat = true ∧ c = m xs) ∨ (um = none ∧ cat = false ∧ c = cadd e (m xs))))

/-! ### Helper lemmas -/

theorem look_has {A : Type} (d : List (Nat × A)) (v : Nat) :
    (∃ x, look d v = some x ∧ Has d v x) ∨ (look d v = none ∧ Lacks d v) := by
  unfold look Has Lacks
  cases h : d.find? (fun e => e.1 == v) with
  | none =>
    right
    refine ⟨rfl, fun x hx => ?_⟩
    have := List.find?_eq_none.1 h _ hx
    simp at this
  | some e =>
    left
    have h1 := List.find?_some h
    have h2 := List.mem_of_find?_eq_some h
    rw [beq_iff_eq] at h1
    subst h1
    exact ⟨e.2, rfl, h2⟩

theorem foldl_set (exog : List (Nat × Col K)) : ∀ (g : Nat → Col K), IsDict exog → ∀ v,
    (∀ x, Has exog v x → exog.foldl (fun g e => setCol g e.1 e.2) g v = x) ∧
    (Lacks exog v → exog.foldl (fun g e => setCol g e.1 e.2) g v = g v) := by
  induction exog with
  | nil => intro g _ v; exact ⟨fun x h => absurd h (List.not_mem_nil), fun _ => rfl⟩
  | cons e l ih =>
    intro g hd v
    unfold IsDict at hd
    rw [List.map_cons, List.nodup_cons] at hd
    obtain ⟨h1, h2⟩ := ih (setCol g e.1 e.2) hd.2 v
    rw [List.foldl_cons]
    constructor
    · intro x hx
      rcases List.mem_cons.1 hx with h | h
      · have hl : Lacks l v := by
          intro y hy
          apply hd.1
          rw [List.mem_map]
          exact ⟨_, hy, by rw [← h]⟩
        rw [h2 hl, ← h, setCol_self]
      · exact h1 x h
    · intro hl
      have hne : v ≠ e.1 := by
        intro h
        apply hl e.2
        rw [h]
        exact List.mem_cons_self
      rw [h2 (fun x hx => hl x (List.mem_cons_of_mem _ hx)), setCol_ne _ _ _ _ hne]

/-! ### The equations -/

/-- **C85.** Whatever is passed to `generate`, if it returns, then: an adjustment variable has the exogenous values given
for it, otherwise its data; the cause has the endogenous values given for it, otherwise the user's model or the fitted
model applied to these adjustment columns and the error of the cause; the effect likewise from the *new* cause and the
adjustment columns.  Errors are the exogenous values given, otherwise the training residuals. -/
theorem C85_equations {X : Frame K} {cause effect : Nat} {adj : List Nat} {f : Fitted K}
    (h : fit fitC fitE X cause effect adj = Except.ok f) (hp : Proper X cause effect adj)
    (endog exog : List (Nat × Col K)) (hexog : IsDict exog) (umC umE : Option (UserModel K)) (g : Nat → Col K)
    (hg : generate f endog exog umC umE = Except.ok g) :
    (∀ a ∈ adj, Has exog a (g a) ∨ (Lacks exog a ∧ g a = X.data a)) ∧
    (adj ≠ [] → ∃ e, IsError exog cause (X.cat cause) (X.data cause)
        (fitC (adj.map X.data) (X.data cause) (adj.map X.data)) e ∧
      Generated endog umC cause (X.cat cause) (fitC (adj.map X.data) (X.data cause)) (adj.map g) e (g cause)) ∧
    (∃ e, IsError exog effect (X.cat effect) (X.data effect)
        (fitE (X.data cause :: adj.map X.data) (X.data effect) (X.data cause :: adj.map X.data)) e ∧
      Generated endog umE effect (X.cat effect) (fitE (X.data cause :: adj.map X.data) (X.data effect))
        (g cause :: adj.map g) e (g effect)) := by
  obtain ⟨h1, h2, h3, rfl, rfl, rfl, rfl, hmE, heE, _, hC⟩ := fit_ok fitC fitE h
  unfold generate at hg
  split at hg
  · cases hg
  · split at hg
    · cases hg
    · rename_i c hc
      simp only at hg
      split at hg
      · cases hg
      · injection hg with hg
        have hst := fun v => foldl_set exog (setCol (setCol f.X.data f.cause f.errC) f.effect f.errE) hexog v
        have hst' : ∀ v, start f exog v = exog.foldl (fun g e => setCol g e.1 e.2)
          (setCol (setCol f.X.data f.cause f.errC) f.effect f.errE) v := fun v => rfl
        have hgE : g f.effect = genEffect f endog umE (setCol (start f exog) f.cause c) := by rw [← hg, setCol_self]
        have hgC : g f.cause = c := by rw [← hg, setCol_ne _ _ _ _ hp.ce, setCol_self]
        have hgA : ∀ a ∈ f.adj, g a = start f exog a := by
          intro a ha
          have hae : a ≠ f.effect := fun e => hp.ea (e ▸ ha)
          have hac : a ≠ f.cause := fun e => hp.ca (e ▸ ha)
          rw [← hg, setCol_ne _ _ _ _ hae, setCol_ne _ _ _ _ hac]
        have hmap : f.adj.map (start f exog) = f.adj.map g := (List.map_congr_left hgA).symm
        have errs : ∀ (v : Nat) (cat : Bool) (y p d : Col K),
            setCol (setCol f.X.data f.cause f.errC) f.effect f.errE v = d → d = resid cat y p →
            IsError exog v cat y p (start f exog v) := by
          intro v cat y p d hd hr
          rcases look_has exog v with ⟨x, _, hx⟩ | ⟨_, hx⟩
          · left
            rw [hst', (hst v).1 x hx]
            exact hx
          · right
            rw [hst', (hst v).2 hx, hd, hr]
            unfold resid
            cases cat with
            | true => exact Or.inl ⟨hx, rfl, fun r => by simp⟩
            | false => exact Or.inr ⟨hx, rfl, by simp⟩
        refine ⟨fun a ha => ?_, fun hne => ?_, ?_⟩
        · rcases look_has exog a with ⟨x, _, hx⟩ | ⟨_, hx⟩
          · left
            rw [hgA a ha, hst', (hst a).1 x hx]
            exact hx
          · right
            have hae : a ≠ f.effect := fun e => hp.ea (e ▸ ha)
            have hac : a ≠ f.cause := fun e => hp.ca (e ▸ ha)
            rw [hgA a ha, hst', (hst a).2 hx, setCol_ne _ _ _ _ hae, setCol_ne _ _ _ _ hac]
            exact ⟨hx, rfl⟩
        · obtain ⟨hmC, heC⟩ := hC hne
          refine ⟨start f exog f.cause, ?_, ?_⟩
          · refine errs f.cause _ _ _ f.errC ?_ heC
            rw [setCol_ne _ _ _ _ hp.ce, setCol_self]
          · rw [hgC]
            unfold genCause at hc
            rw [hmap] at hc
            rcases look_has endog f.cause with ⟨x, hl, hx⟩ | ⟨hl, hx⟩
            · rw [hl] at hc
              injection hc with hc
              rw [← hc]
              exact Or.inl hx
            · refine Or.inr ⟨hx, ?_⟩
              rw [hl] at hc
              cases umC with
              | some u =>
                injection hc with hc
                exact Or.inl ⟨u, rfl, hc.symm⟩
              | none =>
                simp only [hmC] at hc
                injection hc with hc
                cases hcat : f.X.cat f.cause with
                | true => rw [hcat, if_pos rfl] at hc; exact Or.inr (Or.inl ⟨rfl, rfl, hc.symm⟩)
                | false =>
                  rw [hcat, if_neg Bool.false_ne_true] at hc
                  exact Or.inr (Or.inr ⟨rfl, rfl, hc.symm⟩)
        · refine ⟨start f exog f.effect, ?_, ?_⟩
          · refine errs f.effect _ _ _ f.errE (setCol_self _ _ _) ?_
            rw [heE, hmE]
          · rw [hgE]
            unfold genEffect
            rw [setCol_self, setCol_ne _ _ _ _ (Ne.symm hp.ce), map_setCol _ _ _ _ hp.ca, hmap, ← hgC, hmE]
            rcases look_has endog f.effect with ⟨x, hl, hx⟩ | ⟨hl, hx⟩
            · rw [hl]
              exact Or.inl hx
            · rw [hl]
              refine Or.inr ⟨hx, ?_⟩
              cases umE with
              | some u => exact Or.inl ⟨u, rfl, rfl⟩
              | none =>
                simp only
                cases hcat : f.X.cat f.effect with
                | true => simp
                | false => simp

/-- **C85 is violated for categorical variables**: exogenous values for a categorical cause are accepted and have no
influence on the result, for all inputs. -/
theorem C85_exog_categorical_ignored {X : Frame K} {cause effect : Nat} {adj : List Nat} {f : Fitted K}
    (h : fit fitC fitE X cause effect adj = Except.ok f) (hp : Proper X cause effect adj) (hcat : X.cat cause = true)
    (c : Col K) (umE : Option (UserModel K)) :
    generate f [] [(cause, c)] none umE = generate f [] [] none umE := by
  obtain ⟨h1, h2, h3, rfl, rfl, rfl, rfl, hmE, heE, _, hC⟩ := fit_ok fitC fitE h
  have e1 : start f [(f.cause, c)] = setCol (start f []) f.cause c := rfl
  have e2 : ∀ d, setCol (setCol (start f []) f.cause c) f.cause d = setCol (start f []) f.cause d := by
    intro d
    funext v
    unfold setCol
    split <;> rfl
  have e3 : genCause f [] none (start f [(f.cause, c)]) = genCause f [] none (start f []) := by
    unfold genCause
    rw [e1, map_setCol _ _ _ _ hp.ca, hcat]
    rfl
  unfold generate
  rw [if_neg (by simp [Fitted.names]), if_neg (by simp), e3]
  cases genCause f [] none (start f []) with
  | error e => rfl
  | ok d =>
    simp only
    rw [e1, e2]

/-- Two exogenous interventions at once: adjustment 2 gets 50 + r, the effect gets error 1. -/
example : ((fit sumModel sumModel frame3 0 1 [2]).toOption.bind (fun f =>
    (generate f [] [(2, fun r => some (50 + r)), (1, fun _ => some 1)] none none).toOption.map
      (fun g => (g 0 4, g 1 4, g 2 4)))) = some (some (-20 + 54), some (34 + 54 + 1), some 54) := by decide +kernel

/-- Both cause and effect set: nothing is computed. -/
example : ((fit sumModel sumModel frame3 0 1 [2]).toOption.bind (fun f =>
    (generate f [(0, fun _ => some 7), (1, fun _ => some 8)] [] none none).toOption.map
      (fun g => (g 0 4, g 1 4, g 2 4)))) = some (some 7, some 8, some 24) := by decide +kernel

example : IsDict [(2, fun r => some ((50 : ℚ) + (r : Nat))), (1, fun _ => some 1)] := by unfold IsDict; decide

end Verif.Cdg
