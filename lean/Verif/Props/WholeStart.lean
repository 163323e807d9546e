import Verif.Props.WholeExamples
import Verif.Props.Parafac2

/-!
# C81: the arguments of a call reach the loop, and its initial variables are the requested ones
-/

namespace Verif.Props

open Verif.Whole Verif.Loop Verif.ADMM Verif.Penalties Verif.Parse Verif.Spec Finset Matrix

variable {I K R : ℕ} {J : Fin I → ℕ}

/-- What a documented initialisation means: the array drawn from the named distribution, or zeros. -/
def InitAs {β : Type} (s : String) (uniform normal zero x : β) : Prop :=
  (s = "random_uniform" ∧ x = uniform) ∨ (s = "random_standard_normal" ∧ x = normal) ∨ (s = "zeros" ∧ x = zero)

theorem scheme_initAs {β : Type} {s : String} {u n z x : β} (h : World.scheme s u n z = .ok x) : InitAs s u n z x := by
  unfold World.scheme at h
  split at h
  · exact .inl ⟨‹_›, (Except.ok.inj h).symm⟩
  split at h
  · exact .inr (.inl ⟨‹_›, (Except.ok.inj h).symm⟩)
  split at h
  · exact .inr (.inr ⟨‹_›, (Except.ok.inj h).symm⟩)
  · cases h

theorem InitAs.map {β γ : Type} {s : String} {u n z x : β} (f : β → γ) (h : InitAs s u n z x) : InitAs s (f u) (f n) (f z) (f x) := by
  rcases h with ⟨h, rfl⟩ | ⟨h, rfl⟩ | ⟨h, rfl⟩
  · exact .inl ⟨h, rfl⟩
  · exact .inr (.inl ⟨h, rfl⟩)
  · exact .inr (.inr ⟨h, rfl⟩)

theorem eyeMat_orthonormal {m n : ℕ} (h : n ≤ m) : Orthonormal (World.eyeMat m n) := by
  unfold Orthonormal
  ext a b
  simp only [mul_apply, transpose_apply, World.eyeMat, one_apply]
  rw [sum_eq_single (⟨a.val, lt_of_lt_of_le a.isLt h⟩ : Fin m)]
  · by_cases e : a = b
    · simp [e]
    · simp [e, Fin.val_ne_of_ne e]
  · intro i _ hi
    have : i.val ≠ a.val := fun e => hi (Fin.ext e)
    simp [this]
  · intro c; exact absurd (mem_univ _) c

/-- The auxiliary variable of a penalty on mode 1 is as requested by `aux_init`: drawn matrices, or for PARAFAC2 orthonormal bases (if the matrices have at least `R` rows)
and a drawn coordinate matrix. -/
def AuxBAs (s : String) (u n : Drawn I K R J) : AuxB I R J → Prop
  | .mats M => InitAs s u.B n.B (fun _ => 0) M
  | .p2 a => InitAs s u.coord n.coord 0 a.coord ∧ ∀ i, R ≤ J i → Orthonormal (a.bases i)

/-- C81: a call that returns, with documented arguments and no penalties of the caller, is a run of the loop on the data, with the caller's limits, tolerances, scale and flags,
from the initial factorization that was requested; every auxiliary variable is initialised as `aux_init` says and every dual variable as `dual_init` says, each
from its own draw. -/
theorem C81 (W : World I K R J) (c : Call I K R J) (h h' : Heap String) (res : Result I K R J) (hregs : c.regs = none) {f : Fin 3 → ModeArgs} (hf : AllForms c.args f)
    (hsc : ∀ m, Scalar (f m)) {l2 : Fin 3 → Leaf} (hl2 : Forms c.l2 l2) (e : call W c h = (h', .ok res)) :
    ∃ (P : Problem I K R res.nA res.nB res.nC J) (init : AOState I K R res.nA res.nB res.nC J), cmfAoadmm P c.loop init = .ok res.out ∧
      (P.X = c.X ∧ P.params.nInner = c.nInner ∧ P.params.innerTol = c.innerTol ∧ P.params.scale = c.scale ∧ P.l2 = ((l2 0).real, (l2 1).real, (l2 2).real) ∧
        P.updA = c.updA ∧ P.updB = c.updB ∧ P.updC = c.updC) ∧
      (∃ start, initializeCmf W.init c.init = .ok start ∧ init.weights = start.weights ∧ init.F = start.F) ∧
      (∀ p : Fin res.nA, InitAs c.auxInit (W.draw false false p).A (W.draw false true p).A 0 (init.auxA p) ∧
        InitAs c.dualInit (W.draw true false p).A (W.draw true true p).A 0 (init.dualA p)) ∧
      (∀ p : Fin res.nB, AuxBAs c.auxInit (W.draw false false p) (W.draw false true p) (init.auxB p) ∧
        InitAs c.dualInit (W.draw true false p).B (W.draw true true p).B (fun _ => 0) (init.dualB p)) ∧
      ∀ p : Fin res.nC, InitAs c.auxInit (W.draw false false p).C (W.draw false true p).C 0 (init.auxC p) ∧
        InitAs c.dualInit (W.draw true false p).C (W.draw true true p).C 0 (init.dualC p) := by
  have hs : NotSelf h c.regs := fun b L hb => by rw [hregs] at hb; cases hb
  obtain ⟨start, l2', args, h1, hl, h3, parsed, user, hm, hsol⟩ := call_ok hs e
  obtain ⟨args', ha', he⟩ := C49_modes hf
  rw [h3] at ha'
  obtain rfl := Except.ok.inj ha'
  obtain ⟨S, out, ho, rfl⟩ := solve_ok hsol
  have hbuilt : ∀ (m : Fin 3) (upd : Bool), ∀ q ∈ dropRegs upd (parsed m.val ++ user m.val), ∃ k z, q = .built k c.auxInit c.dualInit z := by
    intro m upd q hq
    obtain ⟨hp, hu⟩ := hm m.val m.isLt
    rw [hregs] at hu
    have hu : user m.val = [] := hu
    have hq : q ∈ parsed m.val := by
      cases upd with
      | false => cases hq
      | true => simpa [dropRegs, hu] using hq
    rw [he m] at hp
    obtain ⟨k, z, hk, -⟩ := parsed_kinds (hsc m) hp q hq
    exact ⟨k, z, hk⟩
  refine ⟨S.problem _, S.state start, ho, ⟨rfl, rfl, rfl, rfl, ?_, rfl, rfl, rfl⟩, ⟨start, h1, rfl, rfl⟩, fun p => ?_, fun p => ?_, fun p => ?_⟩
  · have hreal : ∀ x : Leaf, (if x.isNone then Leaf.num 0 else x).real = x.real := by intro x; cases x <;> rfl
    have e2 : l2' = [l2 0, l2 1, l2 2].map fun x => if x.isNone then .num 0 else x := by
      simp only [l2List, PVal.toArg, id, (C49 _).1 _ hl2] at hl
      exact (Except.ok.inj hl).symm
    simp only [Setup.problem, Call.problem, e2, List.map_cons, List.map_nil, List.getD_cons_zero, List.getD_cons_succ, hreal]
  · obtain ⟨k, z, hk⟩ := hbuilt 0 c.updA _ (List.get_mem _ p)
    have x1 := S.auxA_ok p
    have x2 := S.dualA_ok p
    rw [show (dropRegs c.updA (parsed 0 ++ user 0)).get p = _ from hk] at x1 x2
    refine ⟨?_, scheme_initAs x2⟩
    cases k <;> first | exact scheme_initAs x1 | cases x1
  · obtain ⟨k, z, hk⟩ := hbuilt 1 c.updB _ (List.get_mem _ p)
    have x1 := S.auxB_ok p
    have x2 := S.dualB_ok p
    rw [show (dropRegs c.updB (parsed 1 ++ user 1)).get p = _ from hk] at x1 x2
    refine ⟨?_, scheme_initAs x2⟩
    show AuxBAs _ _ _ (S.auxB p)
    cases k <;> rcases scheme_initAs x1 with ⟨hq, e⟩ | ⟨hq, e⟩ | ⟨hq, e⟩ <;> rw [e] <;>
      first
        | exact .inl ⟨hq, rfl⟩
        | exact .inr (.inl ⟨hq, rfl⟩)
        | exact .inr (.inr ⟨hq, rfl⟩)
        | exact ⟨.inl ⟨hq, rfl⟩, fun i hi => eyeMat_orthonormal hi⟩
        | exact ⟨.inr (.inl ⟨hq, rfl⟩), fun i hi => eyeMat_orthonormal hi⟩
        | exact ⟨.inr (.inr ⟨hq, rfl⟩), fun i hi => eyeMat_orthonormal hi⟩
  · obtain ⟨k, z, hk⟩ := hbuilt 2 c.updC _ (List.get_mem _ p)
    have x1 := S.auxC_ok p
    have x2 := S.dualC_ok p
    rw [show (dropRegs c.updC (parsed 2 ++ user 2)).get p = _ from hk] at x1 x2
    refine ⟨?_, scheme_initAs x2⟩
    cases k <;> first | exact scheme_initAs x1 | cases x1

/-- With `n_iter_max <= 0` the loop returns the state it was given: the initial variables of C81 can be observed. -/
theorem C81_no_iterations {nA nB nC : ℕ} (P : Problem I K R nA nB nC J) (a : Args) (ha : a.nIterMax ≤ 0) (init : AOState I K R nA nB nC J)
    (out : Output (AOState I K R nA nB nC J)) (h : cmfAoadmm P a init = .ok out) : out.st = init := by
  obtain ⟨s, hs, hst, -⟩ := fit_ok h
  rw [Int.toNat_of_nonpos ha] at hs
  obtain rfl := Except.ok.inj hs
  exact hst

/-- `n_iter_max=0`, no tolerance. -/
def noIterations : Args := ⟨0, none, none, none, false, 0⟩

/-- C81 applies: `exCall2` with `n_iter_max=0` returns matrices from the standard normal distribution as auxiliary variables, zeros as dual variables and the drawn factor
matrices. The first penalty on mode 1 is PARAFAC2 or non-negativity; in both cases the dual variable is zero. -/
example (W : World 2 3 2 ![4, 5]) (hW : W.knownSvd "truncated_svd" = true) : ∃ h' res, call W { exCall2 with loop := noIterations } [] = (h', .ok res) ∧
    res.out.st.F = W.init.draw ∧ (∀ p : Fin res.nA, res.out.st.auxA p = (W.draw false true p).A ∧ res.out.st.dualA p = 0) ∧
    (∀ p : Fin res.nB, res.out.st.dualB p = fun _ => 0) ∧ ∀ p : Fin res.nC, res.out.st.auxC p = (W.draw false true p).C ∧ res.out.st.dualC p = 0 := by
  obtain ⟨h', res, e⟩ := exReturns2 W [] hW noIterations (by simp [noIterations, truthy])
  refine ⟨h', res, e, ?_⟩
  have hl : Forms exCall2.l2 ![.num (1 / 10), .none, .num (1 / 10)] := .three _ _ _
  obtain ⟨P, init, hrun, -, ⟨start, hs, -, hF⟩, hA, hB, hC⟩ := C81 W { exCall2 with loop := noIterations } [] h' res rfl exForms2 exScalar2 hl e
  have hst := C81_no_iterations P _ (le_refl (0 : ℤ)) init _ hrun
  have hn : ∀ {β : Type} {u n z x : β}, InitAs "random_standard_normal" u n z x → x = n := by
    intro β u n z x h
    rcases h with ⟨h, -⟩ | ⟨-, h⟩ | ⟨h, -⟩
    · exact absurd h (by decide)
    · exact h
    · exact absurd h (by decide)
  have hz : ∀ {β : Type} {u n z x : β}, InitAs "zeros" u n z x → x = z := by
    intro β u n z x h
    rcases h with ⟨h, -⟩ | ⟨h, -⟩ | ⟨-, h⟩
    · exact absurd h (by decide)
    · exact absurd h (by decide)
    · exact h
  cases hs
  rw [hst]
  exact ⟨hF, fun p => ⟨hn (hA p).1, hz (hA p).2⟩, fun p => hz (hB p).2, fun p => ⟨hn (hC p).1, hz (hC p).2⟩⟩

end Verif.Props
