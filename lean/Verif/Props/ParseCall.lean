import Verif.Parse.Call

/-!
# Property C54: `parafac2_aoadmm` is `cmf_aoadmm` with the PARAFAC2 constraint
-/

namespace Verif.Props

open Verif.Parse

variable {γ ρ : Type}

/-- The values of the bound parameters, as seen by the rest of the body. -/
theorem forwarded_bind (env : Name → PVal γ) : ∃ env', bindArgs cmfSignature [] (forwarded env) = .ok env' ∧
    ∀ name, env' name = if name = .parafac2 then .const (.bool true) else if name ∈ cmfSignature.map Prod.fst then env name else .const .none := by
  have hgood : badCall cmfSignature [] (forwarded env) = false := by
    rfl
  refine ⟨_, by unfold bindArgs; rw [hgood]; rfl, fun name => ?_⟩
  cases name <;> rfl

/-- `l2_penalty=None` and `l2_penalty=0` mean the same. -/
theorem l2List_default (user : γ → Arg) : l2List user (.const .none) = l2List user (.const (.int 0)) := by
  simp [l2List, PVal.toArg, listify, Except.map, Leaf.isNone]

/-- Two calls whose arguments are both rejected, or give all parameters the same values, `parafac2` the value `True`, except that `l2_penalty` may be left to its default,
are the same. -/
theorem call_eq (user : γ → Arg) (rest : Except PyErr (List Leaf) → (Name → PVal γ) → ρ) (raised : PyErr → ρ) (pos pos' : List (PVal γ)) (kw kw' : List (Name × PVal γ))
    (hbad : badCall parafac2Signature pos kw = badCall cmfSignature pos' kw')
    (hval : ∀ env env', bindArgs parafac2Signature pos kw = .ok env → bindArgs cmfSignature pos' kw' = .ok env' →
      (∀ name, name ≠ .l2Penalty → (if name = .parafac2 then .const (.bool true) else env name) = env' name) ∧
      (env .l2Penalty = env' .l2Penalty ∨ env .l2Penalty = .const (.int 0) ∧ env' .l2Penalty = .const .none)) :
    parafac2Call user rest raised pos kw = cmfCall user rest raised pos' kw' := by
  unfold parafac2Call
  rcases hb : badCall parafac2Signature pos kw with _ | _
  · obtain ⟨env, e₁, hother⟩ : ∃ env, bindArgs parafac2Signature pos kw = .ok env ∧ ∀ x, env (.other x) = .const .none :=
      ⟨_, by unfold bindArgs; rw [hb]; rfl, fun x => rfl⟩
    obtain ⟨env₂, e₂⟩ : ∃ env, bindArgs cmfSignature pos' kw' = .ok env := ⟨_, by unfold bindArgs; rw [← hbad, hb]; rfl⟩
    obtain ⟨h₁, h₂⟩ := hval _ _ e₁ e₂
    rw [e₁]
    obtain ⟨env', e₃, h₃⟩ := forwarded_bind env
    simp only [cmfCall, e₃, e₂]
    congr 1
    · rw [h₃]
      rcases h₂ with h | ⟨h, h'⟩
      · rw [← h]; rfl
      · rw [h', l2List_default, ← h]; rfl
    · funext name
      by_cases hn : name = .l2Penalty
      · simp [hn]
      · rw [if_neg hn, if_neg hn, ← h₁ name hn, h₃]
        by_cases hp : name = .parafac2
        · simp [hp]
        · rw [if_neg hp, if_neg hp]
          by_cases hm : name ∈ cmfSignature.map Prod.fst
          · rw [if_pos hm]
          · rw [if_neg hm]
            cases name
            case other x => exact (hother x).symm
            all_goals exact absurd (by decide) hm
  · simp only [cmfCall]
    rw [show bindArgs parafac2Signature pos kw = .error .typeError from by unfold bindArgs; rw [hb]; rfl,
      show bindArgs cmfSignature pos' kw' = .error .typeError from by unfold bindArgs; rw [← hbad, hb]; rfl]

theorem bound_default {pos : List (PVal γ)} {kw : List (Name × PVal γ)} {i : ℕ} {name : Name} {d : Const} : (boundValue pos kw i name (some d)).isNone = false := by
  unfold boundValue
  split
  · rfl
  · split <;> rfl

/-- The positions of the parameters: the first 13 are the same, the next 16 differ by one, the last ones are not in the same order. -/
theorem call_shift (user : γ → Arg) (rest : Except PyErr (List Leaf) → (Name → PVal γ) → ρ) (raised : PyErr → ρ) (pos pos' : List (PVal γ)) (kw kw' : List (Name × PVal γ))
    (hl : ∀ name, name ≠ .parafac2 → kw'.lookup name = kw.lookup name) (hA : ∀ i < 13, pos'[i]? = pos[i]?) (hB : ∀ i, 13 ≤ i → i < 29 → pos'[i + 1]? = pos[i]?)
    (hlen : pos.length ≤ 29) (hlen' : pos'.length ≤ 30)
    (hp : (pos'[13]? = some (.const (.bool true)) ∧ kw'.lookup .parafac2 = none) ∨ (pos'[13]? = none ∧ kw'.lookup .parafac2 = some (.const (.bool true))))
    (hun : kw.any (fun p => !(parafac2Signature.map Prod.fst).contains p.1) = kw'.any fun p => !(cmfSignature.map Prod.fst).contains p.1)
    (hdup : (kw.map Prod.fst).Nodup ↔ (kw'.map Prod.fst).Nodup) :
    parafac2Call user rest raised pos kw = cmfCall user rest raised pos' kw' := by
  have hC : ∀ i, 29 ≤ i → pos[i]? = none := fun i hi => List.getElem?_eq_none (by omega)
  have hC' : ∀ i, 30 ≤ i → pos'[i]? = none := fun i hi => List.getElem?_eq_none (by omega)
  -- values of the parameters in the two calls
  have vA : ∀ i name d, i < 13 → name ≠ .parafac2 → boundValue pos' kw' i name d = boundValue pos kw i name d := by
    intro i name d hi hn
    unfold boundValue
    rw [hA i hi, hl name hn]
  have vB : ∀ i name d, 13 ≤ i → i < 29 → name ≠ .parafac2 → boundValue pos' kw' (i + 1) name d = boundValue pos kw i name d := by
    intro i name d hi hi' hn
    unfold boundValue
    rw [hB i hi hi', hl name hn]
  have vC : ∀ i j name d, 29 ≤ i → 30 ≤ j → name ≠ .parafac2 → boundValue pos' kw' j name d = boundValue pos kw i name d := by
    intro i j name d hi hj hn
    unfold boundValue
    rw [hC i hi, hC' j hj, hl name hn]
  have vP : ∀ d, boundValue pos' kw' 13 .parafac2 d = some (.const (.bool true)) := by
    intro d
    unfold boundValue
    rcases hp with ⟨h₁, h₂⟩ | ⟨h₁, h₂⟩ <;> simp only [h₁, h₂]
  have sP : ((pos'[13]?).isSome && (kw'.lookup .parafac2).isSome) = false := by
    rcases hp with ⟨h₁, h₂⟩ | ⟨h₁, h₂⟩ <;> simp only [h₁, h₂] <;> rfl
  apply call_eq
  · unfold badCall
    rw [hun]
    have d₁ : decide (parafac2Signature.length < pos.length) = false := by simp [parafac2Signature]; omega
    have d₂ : decide (cmfSignature.length < pos'.length) = false := by simp [cmfSignature]; omega
    have d₃ : decide ((kw.map Prod.fst).Nodup) = decide ((kw'.map Prod.fst).Nodup) := by simp only [hdup]
    rw [d₁, d₂, d₃]
    congr 1
    have a : ∀ i, i < 13 → pos'[i]? = pos[i]? := hA
    have b : ∀ i, 13 ≤ i → i < 29 → pos'[i + 1]? = pos[i]? := hB
    have b' := fun i h₁ h₂ => b i h₁ h₂
    simp only [parafac2Signature, cmfSignature, List.zipIdx_cons, List.zipIdx_nil, List.any_cons, List.any_nil, Nat.reduceAdd, bound_default, vA 0 .matrices _ (by omega) (by decide),
      vA 1 .rank _ (by omega) (by decide), sP, Bool.or_false, Bool.false_or, hC 29 (by omega), hC 30 (by omega), hC 31 (by omega), hC' 30 (by omega), hC' 31 (by omega),
      hC' 32 (by omega), Option.isSome_none, Bool.false_and, a 0 (by omega), a 1 (by omega), a 2 (by omega), a 3 (by omega), a 4 (by omega), a 5 (by omega), a 6 (by omega),
      a 7 (by omega), a 8 (by omega), a 9 (by omega), a 10 (by omega), a 11 (by omega), a 12 (by omega),
      show pos'[14]? = pos[13]? from b 13 (by omega) (by omega), show pos'[15]? = pos[14]? from b 14 (by omega) (by omega),
      show pos'[16]? = pos[15]? from b 15 (by omega) (by omega), show pos'[17]? = pos[16]? from b 16 (by omega) (by omega),
      show pos'[18]? = pos[17]? from b 17 (by omega) (by omega), show pos'[19]? = pos[18]? from b 18 (by omega) (by omega),
      show pos'[20]? = pos[19]? from b 19 (by omega) (by omega), show pos'[21]? = pos[20]? from b 20 (by omega) (by omega),
      show pos'[22]? = pos[21]? from b 21 (by omega) (by omega), show pos'[23]? = pos[22]? from b 22 (by omega) (by omega),
      show pos'[24]? = pos[23]? from b 23 (by omega) (by omega), show pos'[25]? = pos[24]? from b 24 (by omega) (by omega),
      show pos'[26]? = pos[25]? from b 25 (by omega) (by omega), show pos'[27]? = pos[26]? from b 26 (by omega) (by omega),
      show pos'[28]? = pos[27]? from b 27 (by omega) (by omega), show pos'[29]? = pos[28]? from b 28 (by omega) (by omega)]
    simp only [ne_eq, reduceCtorEq, not_false_eq_true, hl]
  · intro env env' he he'
    unfold bindArgs at he he'
    split at he
    · cases he
    split at he'
    · cases he'
    cases he
    cases he'
    constructor
    · intro name hn
      cases name
      case l2Penalty => exact absurd rfl hn
      case parafac2 => exact congrArg (fun o : Option (PVal γ) => o.getD (.const .none)) (vP (some .none)).symm
      case other x => rfl
      case matrices => exact congrArg (fun o : Option (PVal γ) => o.getD (.const .none)) (vA 0 _ _ (by omega) (by decide)).symm
      case rank => exact congrArg (fun o : Option (PVal γ) => o.getD (.const .none)) (vA 1 _ _ (by omega) (by decide)).symm
      case init => exact congrArg (fun o : Option (PVal γ) => o.getD (.const .none)) (vA 2 _ _ (by omega) (by decide)).symm
      case nIterMax => exact congrArg (fun o : Option (PVal γ) => o.getD (.const .none)) (vA 3 _ _ (by omega) (by decide)).symm
      case tvPenalty => exact congrArg (fun o : Option (PVal γ) => o.getD (.const .none)) (vA 5 _ _ (by omega) (by decide)).symm
      case l1Penalty => exact congrArg (fun o : Option (PVal γ) => o.getD (.const .none)) (vA 6 _ _ (by omega) (by decide)).symm
      case nonNegative => exact congrArg (fun o : Option (PVal γ) => o.getD (.const .none)) (vA 7 _ _ (by omega) (by decide)).symm
      case unimodal => exact congrArg (fun o : Option (PVal γ) => o.getD (.const .none)) (vA 8 _ _ (by omega) (by decide)).symm
      case generalizedL2Penalty => exact congrArg (fun o : Option (PVal γ) => o.getD (.const .none)) (vA 9 _ _ (by omega) (by decide)).symm
      case l2NormBound => exact congrArg (fun o : Option (PVal γ) => o.getD (.const .none)) (vA 10 _ _ (by omega) (by decide)).symm
      case lowerBound => exact congrArg (fun o : Option (PVal γ) => o.getD (.const .none)) (vA 11 _ _ (by omega) (by decide)).symm
      case upperBound => exact congrArg (fun o : Option (PVal γ) => o.getD (.const .none)) (vA 12 _ _ (by omega) (by decide)).symm
      case regs => exact congrArg (fun o : Option (PVal γ) => o.getD (.const .none)) (vB 13 _ _ (by omega) (by omega) (by decide)).symm
      case feasibilityPenaltyScale => exact congrArg (fun o : Option (PVal γ) => o.getD (.const .none)) (vB 14 _ _ (by omega) (by omega) (by decide)).symm
      case constantFeasibilityPenalty => exact congrArg (fun o : Option (PVal γ) => o.getD (.const .none)) (vB 15 _ _ (by omega) (by omega) (by decide)).symm
      case auxInit => exact congrArg (fun o : Option (PVal γ) => o.getD (.const .none)) (vB 16 _ _ (by omega) (by omega) (by decide)).symm
      case dualInit => exact congrArg (fun o : Option (PVal γ) => o.getD (.const .none)) (vB 17 _ _ (by omega) (by omega) (by decide)).symm
      case svd => exact congrArg (fun o : Option (PVal γ) => o.getD (.const .none)) (vB 18 _ _ (by omega) (by omega) (by decide)).symm
      case initParams => exact congrArg (fun o : Option (PVal γ) => o.getD (.const .none)) (vB 19 _ _ (by omega) (by omega) (by decide)).symm
      case randomState => exact congrArg (fun o : Option (PVal γ) => o.getD (.const .none)) (vB 20 _ _ (by omega) (by omega) (by decide)).symm
      case tol => exact congrArg (fun o : Option (PVal γ) => o.getD (.const .none)) (vB 21 _ _ (by omega) (by omega) (by decide)).symm
      case absoluteTol => exact congrArg (fun o : Option (PVal γ) => o.getD (.const .none)) (vB 22 _ _ (by omega) (by omega) (by decide)).symm
      case feasibilityTol => exact congrArg (fun o : Option (PVal γ) => o.getD (.const .none)) (vB 23 _ _ (by omega) (by omega) (by decide)).symm
      case innerTol => exact congrArg (fun o : Option (PVal γ) => o.getD (.const .none)) (vB 24 _ _ (by omega) (by omega) (by decide)).symm
      case innerNIterMax => exact congrArg (fun o : Option (PVal γ) => o.getD (.const .none)) (vB 25 _ _ (by omega) (by omega) (by decide)).symm
      case updateA => exact congrArg (fun o : Option (PVal γ) => o.getD (.const .none)) (vB 26 _ _ (by omega) (by omega) (by decide)).symm
      case updateBIs => exact congrArg (fun o : Option (PVal γ) => o.getD (.const .none)) (vB 27 _ _ (by omega) (by omega) (by decide)).symm
      case updateC => exact congrArg (fun o : Option (PVal γ) => o.getD (.const .none)) (vB 28 _ _ (by omega) (by omega) (by decide)).symm
      case returnErrors => exact congrArg (fun o : Option (PVal γ) => o.getD (.const .none)) (vC 29 31 _ _ (by omega) (by omega) (by decide)).symm
      case returnAdmmVars => exact congrArg (fun o : Option (PVal γ) => o.getD (.const .none)) (vC 30 30 _ _ (by omega) (by omega) (by decide)).symm
      case verbose => exact congrArg (fun o : Option (PVal γ) => o.getD (.const .none)) (vC 31 32 _ _ (by omega) (by omega) (by decide)).symm
    · show (boundValue pos kw 4 .l2Penalty (some (.int 0))).getD _ = (boundValue pos' kw' 4 .l2Penalty (some .none)).getD _ ∨
        (boundValue pos kw 4 .l2Penalty (some (.int 0))).getD _ = _ ∧ (boundValue pos' kw' 4 .l2Penalty (some .none)).getD _ = _
      rw [vA 4 .l2Penalty _ (by omega) (by decide)]
      unfold boundValue
      cases h₄ : pos[4]? with
      | none => cases h₅ : kw.lookup .l2Penalty with
        | none => exact .inr ⟨rfl, rfl⟩
        | some v => exact .inl rfl
      | some v => exact .inl rfl

theorem known_eq {kw : List (Name × PVal γ)} (hkw : Name.parafac2 ∉ kw.map Prod.fst) :
    kw.any (fun p => !(parafac2Signature.map Prod.fst).contains p.1) = kw.any fun p => !(cmfSignature.map Prod.fst).contains p.1 := by
  induction kw with
  | nil => rfl
  | cons p kw ih =>
    simp only [List.map_cons, List.mem_cons, not_or] at hkw
    rw [List.any_cons, List.any_cons, ih hkw.2]
    congr 1
    rcases p with ⟨name, v⟩
    cases name
    case parafac2 => exact absurd rfl hkw.1
    all_goals rfl

theorem lookup_none {kw : List (Name × PVal γ)} (hkw : Name.parafac2 ∉ kw.map Prod.fst) : kw.lookup .parafac2 = none := by
  rw [List.lookup_eq_none_iff]
  intro p hp
  simp only [bne_iff_ne, ne_eq]
  rintro h
  exact hkw (h ▸ List.mem_map_of_mem hp)

/-- C54 for keyword arguments and up to 13 positional arguments: `parafac2_aoadmm(args)` is `cmf_aoadmm(args, parafac2=True)`, also if the arguments are rejected.
(With `parafac2` among the keywords the second is not a call: the keyword is repeated.) -/
theorem C54_partial (user : γ → Arg) (rest : Except PyErr (List Leaf) → (Name → PVal γ) → ρ) (raised : PyErr → ρ) (pos : List (PVal γ)) (kw : List (Name × PVal γ))
    (hpos : pos.length ≤ 13) (hkw : Name.parafac2 ∉ kw.map Prod.fst) :
    parafac2Call user rest raised pos kw = cmfCall user rest raised pos (kw ++ [(.parafac2, .const (.bool true))]) := by
  have hnone := lookup_none hkw
  have hi : ∀ i, 13 ≤ i → pos[i]? = none := fun i h => List.getElem?_eq_none (by omega)
  refine call_shift user rest raised pos pos kw _ (fun name hn => ?_) (fun i _ => rfl) (fun i h h' => by rw [hi i h, hi (i + 1) (by omega)]) (by omega) (by omega)
    (.inr ⟨hi 13 le_rfl, ?_⟩) ?_ ?_
  · rw [List.lookup_append]
    simp [List.lookup, show (name == Name.parafac2) = false from by simpa using hn]
  · rw [List.lookup_append, hnone]; rfl
  · rw [List.any_append, known_eq hkw]
    simp [cmfSignature]
  · rw [List.map_append, List.nodup_append]
    simp only [List.map_cons, List.map_nil, List.nodup_singleton, List.mem_singleton, true_and, forall_eq, iff_self_and]
    rintro - a ha rfl
    exact hkw ha

/-- C54 for 13 to 29 positional arguments: they are those of `cmf_aoadmm` with `True` for `parafac2` in its place. -/
theorem C54_positional_partial (user : γ → Arg) (rest : Except PyErr (List Leaf) → (Name → PVal γ) → ρ) (raised : PyErr → ρ) (pos : List (PVal γ)) (kw : List (Name × PVal γ))
    (hpos : 13 ≤ pos.length) (hpos' : pos.length ≤ 29) (hkw : Name.parafac2 ∉ kw.map Prod.fst) :
    parafac2Call user rest raised pos kw = cmfCall user rest raised (pos.take 13 ++ .const (.bool true) :: pos.drop 13) kw := by
  have ht : (pos.take 13).length = 13 := by simp [hpos]
  refine call_shift user rest raised pos _ kw kw (fun name hn => rfl) (fun i h => ?_) (fun i h h' => ?_) (by omega) (by simp; omega)
    (.inl ⟨?_, lookup_none hkw⟩) (known_eq hkw) Iff.rfl
  · rw [List.getElem?_append_left (by omega), List.getElem?_take_of_lt h]
  · rw [List.getElem?_append_right (by omega), ht, show i + 1 - 13 = (i - 13) + 1 from by omega, List.getElem?_cons_succ, List.getElem?_drop]
    congr 1
    omega
  · rw [List.getElem?_append_right (by omega), ht]; rfl

/-- `parafac2_aoadmm` has no parameter `parafac2`. -/
theorem C54_keyword (user : γ → Arg) (rest : Except PyErr (List Leaf) → (Name → PVal γ) → ρ) (raised : PyErr → ρ) (pos : List (PVal γ)) (kw : List (Name × PVal γ))
    (hkw : Name.parafac2 ∈ kw.map Prod.fst) : parafac2Call user rest raised pos kw = raised .typeError := by
  have : badCall parafac2Signature pos kw = true := by
    obtain ⟨p, hp, h⟩ := List.mem_map.1 hkw
    have : kw.any (fun p => !(parafac2Signature.map Prod.fst).contains p.1) = true := by
      rw [List.any_eq_true]
      exact ⟨p, hp, by rw [h]; rfl⟩
    simp only [badCall, this, Bool.or_true, Bool.true_or]
  simp [parafac2Call, bindArgs, this]

/-- C54, the defaults: all parameters but `parafac2` are in both signatures, with the same default except for `l2_penalty` (`None` and `0`, see `l2List_default`). -/
theorem C54_defaults : (∀ name, name ∈ parafac2Signature.map Prod.fst ↔ name ∈ cmfSignature.map Prod.fst ∧ name ≠ .parafac2) ∧
    (∀ name d d', (name, d) ∈ parafac2Signature → (name, d') ∈ cmfSignature → name ≠ .l2Penalty → d = d') ∧
    (Name.l2Penalty, some (Const.int 0)) ∈ parafac2Signature ∧ (Name.l2Penalty, some Const.none) ∈ cmfSignature := by
  refine ⟨fun name => ?_, ?_, by decide, by decide⟩
  · cases name <;> simp [parafac2Signature, cmfSignature]
  · have : ∀ p ∈ parafac2Signature, ∀ q ∈ cmfSignature, p.1 = q.1 → p.1 ≠ .l2Penalty → p.2 = q.2 := by decide
    intro name d d' h h' hn
    exact this _ h _ h' rfl hn

/-- C54 fails for 14 positional arguments: the last one is `regs` of `parafac2_aoadmm` and `parafac2` of `cmf_aoadmm`, and so is given twice. -/
theorem C54_false : ∃ pos : List (PVal γ), pos.length = 14 ∧ ∀ (user : γ → Arg) (rest : Except PyErr (List Leaf) → (Name → PVal γ) → ρ) (raised : PyErr → ρ),
    cmfCall user rest raised pos [(.parafac2, .const (.bool true))] = raised .typeError ∧
    ∃ env, parafac2Call user rest raised pos [] = rest (l2List user (.const .none)) env :=
  ⟨List.replicate 14 (.const .none), rfl, fun _ _ _ => ⟨rfl, _, rfl⟩⟩

/-- The last parameters are not in the same order: the 30th positional argument of `parafac2_aoadmm` is `return_errors`, in `cmf_aoadmm` (after `parafac2`) it is
`return_admm_vars`. -/
theorem C54_order_false : ∃ pos : List (PVal γ), pos.length = 30 ∧ ∀ (user : γ → Arg) (rest : Except PyErr (List Leaf) → (Name → PVal γ) → ρ) (raised : PyErr → ρ),
    (∃ l env, parafac2Call user rest raised pos [] = rest l env ∧ env .returnErrors = .const (.bool true) ∧ env .returnAdmmVars = .const (.bool false)) ∧
    ∃ l env, cmfCall user rest raised (pos.take 13 ++ .const (.bool true) :: pos.drop 13) [] = rest l env ∧ env .returnErrors = .const (.bool false) ∧
      env .returnAdmmVars = .const (.bool true) :=
  ⟨List.replicate 29 (.const .none) ++ [.const (.bool true)], rfl, fun _ _ _ => ⟨⟨_, _, rfl, rfl, rfl⟩, ⟨_, _, rfl, rfl, rfl⟩⟩⟩

/-- A call with positional and keyword arguments that is accepted. -/
example (x y : γ) (user : γ → Arg) (raised : PyErr → ρ) (rest : Except PyErr (List Leaf) → (Name → PVal γ) → ρ) :
    ∃ env, parafac2Call user rest raised [.user x, .const (.int 3)] [(.nonNegative, .const (.bool true)), (.tol, .user y)] = rest (l2List user (.const (.int 0))) env ∧
      env .matrices = .user x ∧ env .rank = .const (.int 3) ∧ env .tol = .user y ∧ env .parafac2 = .const (.bool true) ∧ env .nIterMax = .const (.int 1000) :=
  ⟨_, rfl, rfl, rfl, rfl, rfl, rfl⟩

end Verif.Props
