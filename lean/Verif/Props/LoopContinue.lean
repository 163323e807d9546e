import Verif.Loop.Continue
import Verif.Props.LoopFalse
import Verif.Props.Alias

/-!
# C90: continuing a run
-/

namespace Verif.Props

open Verif.Loop Verif.ADMM Verif.Penalties Verif.Spec Verif.Alias Finset Matrix

variable {I K R nA nB nC : ℕ} {J : Fin I → ℕ}

/-- What a call with `return_errors=True` reports for two consecutive runs. -/
def joined (d₁ d₂ : Diagnostics) : Diagnostics :=
  ⟨d₁.recErrors ++ d₂.recErrors.tail, d₁.gaps ++ d₂.gaps.tail, d₁.losses ++ d₂.losses.tail, d₂.stopping, d₂.feasible, d₂.message, d₁.nIter + d₂.nIter⟩

theorem relError_last {P : Problem I K R nA nB nC J} {init : AOState I K R nA nB nC J}
    {l : List (AOState I K R nA nB nC J × Option (Inter I R))} {s} (h : Hist (aoOps P) none init l s) :
    ∃ l' i, l = l' ++ [(s, i)] ∧ (aoOps P).relError s i = (aoOps P).relError s none := by
  cases h with
  | zero => exact ⟨[], none, rfl, rfl⟩
  | @snoc l s s' i hl hs =>
    refine ⟨l, i, rfl, ?_⟩
    simp only [aoOps]
    rw [sweep_recError hs, recError_direct]

theorem continued_eq (P : Problem I K R nA nB nC J) {a : Args} (hr : a.returnErrors = true) (k : ℕ) (init : AOState I K R nA nB nC J) :
    cmfAoadmm P { a with nIterMax := k } init =
      match run (aoOps P) a k (initAcc (aoOps P) a none init) with
      | .error e => .error e
      | .ok s => .ok ⟨s.st, some (diagnostics (aoOps P) a s), s.log⟩ := by
  unfold cmfAoadmm fit
  rw [run_args, show initAcc (aoOps P) { a with nIterMax := k } none init = initAcc (aoOps P) a none init from rfl,
    show ({ a with nIterMax := k } : Args).nIterMax.toNat = k from Int.toNat_natCast k]
  cases run (aoOps P) a k (initAcc (aoOps P) a none init) with
  | error e => rfl
  | ok s => dsimp only; rw [if_pos hr]; rfl

/-- C90, calls with `return_errors=True`: if a call that allows `n` iterations was stopped by a criterion, allowing more iterations returns the same. Otherwise a
second call, started from everything the first one returned, reports as initial values the last values of the first call, and the two calls together return and
report what one call that allows `n + m` iterations returns and reports; an exception of the second call is raised by that call as well. -/
theorem C90 (P : Problem I K R nA nB nC J) (a : Args) (hr : a.returnErrors = true) (n m : ℕ) (init : AOState I K R nA nB nC J)
    {o₁ : Output (AOState I K R nA nB nC J)} {d₁ : Diagnostics} (h₁ : cmfAoadmm P { a with nIterMax := n } init = .ok o₁) (hd₁ : o₁.diag = some d₁) :
    (d₁.message ≠ .maxIter → ∃ o₃, cmfAoadmm P { a with nIterMax := (n + m : ℕ) } init = .ok o₃ ∧ o₃.st = o₁.st ∧ o₃.diag = some d₁) ∧
    (d₁.message = .maxIter → d₁.nIter = n ∧ match cmfAoadmm P { a with nIterMax := m } o₁.st with
      | .error e => cmfAoadmm P { a with nIterMax := (n + m : ℕ) } init = .error e
      | .ok o₂ => ∃ o₃ d₂, cmfAoadmm P { a with nIterMax := (n + m : ℕ) } init = .ok o₃ ∧ o₃.st = o₂.st ∧ o₂.diag = some d₂ ∧
          o₃.diag = some (joined d₁ d₂) ∧ d₁.recErrors.getLast? = d₂.recErrors.head? ∧ d₁.gaps.getLast? = d₂.gaps.head? ∧
          d₁.losses.getLast? = d₂.losses.head?) := by
  obtain ⟨s₁, hs₁, hst₁, hdd⟩ := fit_ok h₁
  have hr' : ∀ k : ℤ, ({ a with nIterMax := k } : Args).returnErrors = true := fun _ => hr
  rw [if_pos (hr' n), hd₁, Option.some.injEq] at hdd
  replace hdd : d₁ = diagnostics (aoOps P) a s₁ := hdd
  replace hs₁ : run (aoOps P) { a with nIterMax := (n : ℤ) } ({ a with nIterMax := (n : ℤ) } : Args).nIterMax.toNat (initAcc (aoOps P) a none init) = .ok s₁ := hs₁
  rw [run_args, show ({ a with nIterMax := (n : ℤ) } : Args).nIterMax.toNat = n from Int.toNat_natCast n] at hs₁
  obtain ⟨l, hf, -, hend⟩ := run_ok (follows_init (aoOps P) a none init) rfl hs₁
  obtain ⟨g1, g2, g3⟩ := hf.lists hr
  obtain ⟨hA, hB⟩ := run_add (aoOps P) a m n (s := initAcc (aoOps P) a none init) rfl hs₁
  have fit3 := fun k => continued_eq P hr k init
  have hmsg : d₁.message = s₁.stop.getD .maxIter := by rw [hdd]; rfl
  have hnm : ∀ x, s₁.stop = some x → x ≠ .maxIter := by
    intro x hx hm
    subst hm
    rcases hend with ⟨h0, -⟩ | ⟨-, t, t', -, hb, rfl⟩
    · rw [h0] at hx; cases hx
    · obtain ⟨i, -, -, -, -, -, -, h4⟩ := body_stop hb
      rcases h4 with h4 | h4 <;> rw [h4.1] at hx <;> cases hx
  constructor
  · intro hne
    have hs : s₁.stop ≠ none := fun h => hne (by rw [hmsg, h]; rfl)
    rw [fit3, hA hs]
    exact ⟨_, rfl, hst₁.symm, by rw [hdd]⟩
  · intro hmax
    have hs : s₁.stop = none := by
      cases hx : s₁.stop with
      | none => rfl
      | some x => rw [hx] at hmsg; exact absurd (hmsg.symm.trans hmax) (hnm x hx)
    have hn : s₁.nIter = n := by
      rcases hend with ⟨-, h⟩ | ⟨-, t, t', -, hb, rfl⟩
      · rw [h]; show 0 + n = n; omega
      · obtain ⟨-, -, -, ht, -⟩ := body_ok hb
        obtain ⟨x, hx⟩ := ht rfl
        rw [hx] at hs; cases hs
    refine ⟨by rw [hdd]; exact hn, ?_⟩
    obtain ⟨lg, hrun⟩ := hB hs
    obtain ⟨l', i, hl, hrel⟩ := relError_last hf.hist
    rw [hl, List.map_append] at g1 g2 g3
    simp only [List.map_cons, List.map_nil, hrel] at g1 g2 g3
    have hsh : Shift n (l'.map fun x => (aoOps P).relError x.1 x.2) (l'.map fun x => (aoOps P).gaps x.1)
        (l'.map fun x => lossOf ((aoOps P).relError x.1 x.2) ((aoOps P).penalty x.1)) { s₁ with log := lg } (initAcc (aoOps P) a none s₁.st) :=
      ⟨rfl, g2, g1, g3, by simp [initAcc], hn, hs⟩
    have hrs := run_shift (aoOps P) a m hsh
    rw [fit3, hrun]
    have fit2 := continued_eq P hr m s₁.st
    rw [hst₁, fit2]
    cases hru : run (aoOps P) a m (initAcc (aoOps P) a none s₁.st) with
    | error e => rw [hru] at hrs; simp only at hrs ⊢; rw [hrs]
    | ok u =>
      rw [hru] at hrs
      obtain ⟨s₃, hs₃, e1, e2, e3, e4, -, e6, e7⟩ := hrs
      obtain ⟨l2, hf2, hpre, -⟩ := run_ok (follows_init (aoOps P) a none s₁.st) rfl hru
      obtain ⟨k1, k2, k3⟩ := hf2.lists hr
      obtain ⟨tl, rfl⟩ := hpre
      simp only [List.singleton_append, List.map_cons] at k1 k2 k3
      rw [hs₃]
      refine ⟨_, diagnostics (aoOps P) a u, rfl, e1, rfl, ?_, ?_, ?_, ?_⟩
      · rw [hdd]
        simp only [diagnostics, joined, e1, e2, e3, e4, e6, e7, hn, g1, g2, g3, k1, k2, k3, List.tail_cons, List.append_assoc, List.singleton_append]
      · rw [hdd]
        simp only [diagnostics, g2, k2, List.head?_cons, List.getLast?_append, List.getLast?_singleton, Option.some_or]
      · rw [hdd]
        simp only [diagnostics, g1, k1, List.head?_cons, List.getLast?_append, List.getLast?_singleton, Option.some_or]
      · rw [hdd]
        simp only [diagnostics, g3, k3, List.head?_cons, List.getLast?_append, List.getLast?_singleton, Option.some_or]

/-- C90 without relative tolerance, for any `return_errors`: the two calls return the state of the one call, or raise what it raises. -/
theorem C90_plain (P : Problem I K R nA nB nC J) (a : Args) (ht : ∀ t, ¬ IsSet a.tol t) (n m : ℕ) (init : AOState I K R nA nB nC J) :
    (cmfAoadmm P { a with nIterMax := (n + m : ℕ) } init).map (fun o => o.st) =
      (cmfAoadmm P { a with nIterMax := n } init).bind fun o => (cmfAoadmm P { a with nIterMax := m } o.st).map fun o => o.st := by
  have hf := truthy_false_iff.2 ht
  have key : ∀ (k : ℕ) (s : AOState I K R nA nB nC J), (cmfAoadmm P { a with nIterMax := k } s).map (fun o => o.st) = sweeps' (aoOps P) k s := by
    intro k s
    have := run_plain (O := aoOps P) (a := { a with nIterMax := k }) hf k (initAcc (aoOps P) { a with nIterMax := k } none s)
    unfold cmfAoadmm fit
    simp only [Int.toNat_natCast]
    cases h1 : run (aoOps P) { a with nIterMax := k } k (initAcc (aoOps P) { a with nIterMax := k } none s) <;>
      cases h2 : sweeps' (aoOps P) k s <;> rw [h1, show (initAcc (aoOps P) { a with nIterMax := (k : ℤ) } none s).st = s from rfl, h2] at this <;>
      simp only [Except.map, Except.ok.injEq, Except.error.injEq, Prod.mk.injEq, reduceCtorEq] at this ⊢
    · exact this
    · exact this.1
  have hadd : ∀ (k : ℕ) (s : AOState I K R nA nB nC J), sweeps' (aoOps P) (k + m) s = (sweeps' (aoOps P) k s).bind fun s' => sweeps' (aoOps P) m s' := by
    intro k
    induction k with
    | zero => intro s; rw [Nat.zero_add]; rfl
    | succ k ih =>
      intro s
      rw [Nat.add_right_comm, sweeps', sweeps']
      cases (aoOps P).sweep s with
      | error e => rfl
      | ok x => exact ih x.1
  rw [key, hadd, ← key n init]
  cases cmfAoadmm P { a with nIterMax := n } init with
  | error e => rfl
  | ok o => exact (key m o.st).symm

/-- The hypotheses of C90 on the result of `return_errors` are needed: with a relative tolerance and `return_errors=False`, running one iteration and continuing
for two gives another factorization than one call with three iterations: the second call starts with the loss that the one call leaves out. -/
theorem C90_noErrors : ∃ (P : Problem 1 1 1 1 0 0 (fun _ => 1)) (a : Args) (init : AOState 1 1 1 1 0 0 fun _ => 1) (o₁ o₂ o₃ : Output _),
    ValidSVD P.params ∧ 0 < P.params.nInner ∧ a.returnErrors = false ∧ cmfAoadmm P { a with nIterMax := 1 } init = .ok o₁ ∧
    cmfAoadmm P { a with nIterMax := 2 } o₁.st = .ok o₂ ∧ cmfAoadmm P { a with nIterMax := 3 } init = .ok o₃ ∧
    o₂.st.F.A 0 0 = 10 / 9 ∧ o₃.st.F.A 0 0 = 28 / 27 := by
  obtain ⟨prm, hP, hN, -, hs⟩ := exists_params 1 1 none 1
  obtain ⟨i1, h1⟩ := sweep_nonNeg hP hN hs 1 0 1 (1 / 3) (by norm_num) (by norm_num)
  obtain ⟨i2, h2⟩ := sweep_nonNeg hP hN hs (1 / 3) (1 / 3 + 1) 0 (10 / 9) (by norm_num) (by norm_num)
  obtain ⟨i3, h3⟩ := sweep_nonNeg hP hN hs (10 / 9) (10 / 9 + 0) 0 (28 / 27) (by norm_num) (by norm_num)
  have hX : (scP prm 1 0 fun _ : Fin 1 => StdPen.nonNeg.toA).X ≠ 0 := fun h => by
    have := congrFun (congrFun (congrFun h 0) 0) 0
    simp [scP, scX, sc] at this
  set P := scP prm 1 0 fun _ : Fin 1 => StdPen.nonNeg.toA with hPdef
  have c1 := check_scS (1 / 3) (1 / 3 + 1) 0 (1 / 2) (by norm_num)
  have c2 := check_scS (10 / 9) (10 / 9 + 0) 0 (1 / 2) (by norm_num)
  have c3 := check_scS (28 / 27) (28 / 27 + 0) 0 (1 / 2) (by norm_num)
  rw [show decide (|1 / 3 + 1 - (1 / 3 : ℝ)| / |(1 / 3 : ℝ)| < 1 / 2) = false from by norm_num [abs_of_pos]] at c1
  rw [show decide (|10 / 9 + 0 - (10 / 9 : ℝ)| / |(10 / 9 : ℝ)| < 1 / 2) = true from by norm_num] at c2
  rw [show decide (|28 / 27 + 0 - (28 / 27 : ℝ)| / |(28 / 27 : ℝ)| < 1 / 2) = true from by norm_num] at c3
  let a : Args := ⟨3, some 1, some (1 / 1000), some (1 / 2), false, 0⟩
  let init := scS (n := 1) 1 (fun _ => 0) fun _ => 1
  let mid := scS (n := 1) (1 / 3) (fun _ => 1 / 3 + 1) fun _ => 0
  have l0 : (initAcc (aoOps P) a none init).losses.getLastD .nan = .fin 0 := by
    simp only [initAcc, List.getLastD_cons, List.getLastD_nil, relError_none hX, lossOf, penalty_eq]
    rw [show 1 / 2 * relErr P.X init ^ 2 + regValue P init.F = lossValue P init from rfl, hPdef, lossValue_scS]
    norm_num
  have v1 : lossValue P mid = 2 / 9 := by
    rw [hPdef, lossValue_scS, sq_abs]; norm_num
  have l1 : (initAcc (aoOps P) a none mid).losses.getLastD .nan = .fin (2 / 9) := by
    simp only [initAcc, List.getLastD_cons, List.getLastD_nil, relError_none hX, lossOf, penalty_eq]
    rw [show 1 / 2 * relErr P.X mid ^ 2 + regValue P mid.F = lossValue P mid from rfl, v1]
  have v2 : lossValue P (scS (n := 1) (10 / 9) (fun _ => 10 / 9 + 0) fun _ => 0) = 1 / 162 := by
    rw [hPdef, lossValue_scS, sq_abs]; norm_num
  have v3 : lossValue P (scS (n := 1) (28 / 27) (fun _ => 28 / 27 + 0) fun _ => 0) = 1 / 1458 := by
    rw [hPdef, lossValue_scS, sq_abs]; norm_num
  have k2 : relCriterion (.fin (2 / 9)) (.fin (1 / 162)) 1 = true := by
    simp only [relCriterion]; norm_num [abs_of_pos]
  -- the continued run
  obtain ⟨s2, b2, st2, -, -⟩ := body_eval hX (a := a) (tol := 1) (abs := 1 / 1000) (ft := 1 / 2)
    ⟨rfl, one_ne_zero⟩ rfl ⟨rfl, by norm_num⟩ (s := initAcc (aoOps P) a none mid) h2 (.inr c2) l1
  rw [c2, v2, k2, Bool.true_or, Bool.true_and] at b2
  have r1 : run (aoOps P) a 2 (initAcc (aoOps P) a none mid) = .ok s2 := by
    rw [run, b2]
  -- the one call
  obtain ⟨t1, d1, tt1, tl1⟩ := body_skip (a := a) (tol := 1) (ft := 1 / 2) ⟨rfl, one_ne_zero⟩ ⟨rfl, by norm_num⟩ rfl
    (s := initAcc (aoOps P) a none init) h1 c1
  obtain ⟨t2, d2, tt2, tl2, -⟩ := body_eval hX (a := a) (tol := 1) (abs := 1 / 1000) (ft := 1 / 2)
    ⟨rfl, one_ne_zero⟩ rfl ⟨rfl, by norm_num⟩ (s := t1) (by rw [tt1]; exact h2) (.inr c2) (p := .fin 0) (by rw [tl1]; exact l0)
  obtain ⟨t3, d3, tt3, -, -⟩ := body_eval hX (a := a) (tol := 1) (abs := 1 / 1000) (ft := 1 / 2)
    ⟨rfl, one_ne_zero⟩ rfl ⟨rfl, by norm_num⟩ (s := t2) (by rw [tt2]; exact h3) (.inr c3) (p := .fin (1 / 162)) (by rw [tl2, v2]; simp)
  have k2' : (relCriterion (.fin 0) (.fin (1 / 162)) 1 || decide ((1 / 162 : ℝ) < 1 / 1000)) = false := by
    simp only [relCriterion]; norm_num
  rw [c2, v2, k2', Bool.and_false] at d2
  have k3 : (relCriterion (.fin (1 / 162)) (.fin (1 / 1458)) 1 || decide ((1 / 1458 : ℝ) < 1 / 1000)) = true := by
    simp only [relCriterion]; norm_num [abs_of_pos]
  rw [c3, v3, k3, Bool.and_true] at d3
  have r2 : run (aoOps P) a 3 (initAcc (aoOps P) a none init) = .ok t3 := by
    rw [run, d1]; simp only; rw [run, d2]; simp only; rw [run, d3]
  have r0 : run (aoOps P) a 1 (initAcc (aoOps P) a none init) = .ok { t1 with log := t1.log ++ [] } := by
    rw [run, d1]; simp only; rw [run]; rfl
  refine ⟨P, a, init, ⟨mid, none, t1.log ++ []⟩, ⟨s2.st, none, s2.log⟩, ⟨t3.st, none, t3.log⟩, hP, by show 0 < prm.nInner; omega, rfl,
    ?_, ?_, ?_, ?_, ?_⟩
  · unfold cmfAoadmm fit
    rw [run_args, show (initAcc (aoOps P) { a with nIterMax := 1 } none init) = initAcc (aoOps P) a none init from rfl,
      show ({ a with nIterMax := 1 } : Args).nIterMax.toNat = 1 from rfl, r0]
    simp only [tt1]
    rfl
  · unfold cmfAoadmm fit
    rw [run_args, show (initAcc (aoOps P) { a with nIterMax := 2 } none mid) = initAcc (aoOps P) a none mid from rfl,
      show ({ a with nIterMax := 2 } : Args).nIterMax.toNat = 2 from rfl, r1]
    rfl
  · unfold cmfAoadmm fit
    rw [run_args, show (initAcc (aoOps P) { a with nIterMax := 3 } none init) = initAcc (aoOps P) a none init from rfl,
      show ({ a with nIterMax := 3 } : Args).nIterMax.toNat = 3 from rfl, r2]
    rfl
  · show s2.st.F.A 0 0 = _
    rw [st2]; rfl
  · show t3.st.F.A 0 0 = _
    rw [tt3]; rfl

/-- A case of C90 with tolerances: the first call uses its one iteration, the second one stops after one of its two iterations because of the relative tolerance. -/
theorem C90_example : ∃ (P : Problem 1 1 1 1 0 0 (fun _ => 1)) (a : Args) (init : AOState 1 1 1 1 0 0 fun _ => 1) (o₁ o₂ : Output _) (d₁ d₂ : Diagnostics),
    ValidSVD P.params ∧ 0 < P.params.nInner ∧ a.returnErrors = true ∧ cmfAoadmm P { a with nIterMax := (1 : ℕ) } init = .ok o₁ ∧ o₁.diag = some d₁ ∧
    d₁.message = .maxIter ∧ cmfAoadmm P { a with nIterMax := (2 : ℕ) } o₁.st = .ok o₂ ∧ o₂.diag = some d₂ ∧ d₂.message ≠ .maxIter ∧ d₂.nIter = 1 ∧
    o₁.st.F.A 0 0 = 1 / 3 ∧ o₂.st.F.A 0 0 = 10 / 9 := by
  obtain ⟨prm, hP, hN, -, hs⟩ := exists_params 1 1 none 1
  obtain ⟨i1, h1⟩ := sweep_nonNeg hP hN hs 1 0 1 (1 / 3) (by norm_num) (by norm_num)
  obtain ⟨i2, h2⟩ := sweep_nonNeg hP hN hs (1 / 3) (1 / 3 + 1) 0 (10 / 9) (by norm_num) (by norm_num)
  have hX : (scP prm 1 0 fun _ : Fin 1 => StdPen.nonNeg.toA).X ≠ 0 := fun h => by
    have := congrFun (congrFun (congrFun h 0) 0) 0
    simp [scP, scX, sc] at this
  set P := scP prm 1 0 fun _ : Fin 1 => StdPen.nonNeg.toA with hPdef
  have c1 := check_scS (1 / 3) (1 / 3 + 1) 0 (1 / 2) (by norm_num)
  have c2 := check_scS (10 / 9) (10 / 9 + 0) 0 (1 / 2) (by norm_num)
  rw [show decide (|1 / 3 + 1 - (1 / 3 : ℝ)| / |(1 / 3 : ℝ)| < 1 / 2) = false from by norm_num [abs_of_pos]] at c1
  rw [show decide (|10 / 9 + 0 - (10 / 9 : ℝ)| / |(10 / 9 : ℝ)| < 1 / 2) = true from by norm_num] at c2
  let a : Args := ⟨3, some 1, some (1 / 1000), some (1 / 2), true, 0⟩
  let init := scS (n := 1) 1 (fun _ => 0) fun _ => 1
  let mid := scS (n := 1) (1 / 3) (fun _ => 1 / 3 + 1) fun _ => 0
  have v1 : lossValue P mid = 2 / 9 := by
    rw [hPdef, lossValue_scS, sq_abs]; norm_num
  have l1 : (initAcc (aoOps P) a none mid).losses.getLastD .nan = .fin (2 / 9) := by
    simp only [initAcc, List.getLastD_cons, List.getLastD_nil, relError_none hX, lossOf, penalty_eq]
    rw [show 1 / 2 * relErr P.X mid ^ 2 + regValue P mid.F = lossValue P mid from rfl, v1]
  have v2 : lossValue P (scS (n := 1) (10 / 9) (fun _ => 10 / 9 + 0) fun _ => 0) = 1 / 162 := by
    rw [hPdef, lossValue_scS, sq_abs]; norm_num
  have k2 : relCriterion (.fin (2 / 9)) (.fin (1 / 162)) 1 = true := by
    simp only [relCriterion]; norm_num [abs_of_pos]
  obtain ⟨s1, b1, st1, -, -⟩ := body_eval hX (a := a) (tol := 1) (abs := 1 / 1000) (ft := 1 / 2)
    ⟨rfl, one_ne_zero⟩ rfl ⟨rfl, by norm_num⟩ (s := initAcc (aoOps P) a none init) h1 (.inl rfl) rfl
  obtain ⟨s2, b2, st2, -, -⟩ := body_eval hX (a := a) (tol := 1) (abs := 1 / 1000) (ft := 1 / 2)
    ⟨rfl, one_ne_zero⟩ rfl ⟨rfl, by norm_num⟩ (s := initAcc (aoOps P) a none mid) h2 (.inr c2) l1
  rw [c1, Bool.false_and] at b1
  rw [c2, v2, k2, Bool.true_or, Bool.true_and] at b2
  have r1 : run (aoOps P) a 1 (initAcc (aoOps P) a none init) = .ok { s1 with log := s1.log ++ [] } := by
    rw [run, b1]; rfl
  have r2 : run (aoOps P) a 2 (initAcc (aoOps P) a none mid) = .ok s2 := by
    rw [run, b2]
  obtain ⟨-, -, -, -, hs1, -⟩ := body_ok b1
  obtain ⟨-, -, hn2, -, -, -⟩ := body_ok b2
  obtain ⟨i, -, -, -, -, -, -, hm2⟩ := body_stop b2
  let t1 : Loop.Acc (AOState 1 1 1 1 0 0 fun _ => 1) := { s1 with log := s1.log ++ [] }
  refine ⟨P, a, init, ⟨mid, some (diagnostics (aoOps P) a t1), t1.log⟩, ⟨s2.st, some (diagnostics (aoOps P) a s2), s2.log⟩, diagnostics (aoOps P) a t1,
    diagnostics (aoOps P) a s2, hP, by show 0 < prm.nInner; omega, rfl, ?_, rfl, ?_, ?_, rfl, ?_, ?_, rfl, ?_⟩
  · rw [continued_eq P (a := a) rfl 1 init, r1]
    exact congrArg (fun x => Except.ok (⟨x, some (diagnostics (aoOps P) a t1), t1.log⟩ : Output _)) st1
  · show ({ s1 with log := s1.log ++ [] } : Loop.Acc _).stop.getD .maxIter = _
    rw [show ({ s1 with log := s1.log ++ [] } : Loop.Acc _).stop = s1.stop from rfl, hs1 rfl]; rfl
  · rw [continued_eq P (a := a) rfl 2 mid, r2]
  · show s2.stop.getD .maxIter ≠ _
    rcases hm2 with h | h <;> rw [h.1] <;> simp
  · show s2.nIter = 1
    rw [hn2]; rfl
  · show s2.st.F.A 0 0 = _
    rw [st2]; rfl

/-- A call that starts without weights returns none. -/
theorem call_weights {P : Problem I K R nA nB nC J} {a : Args} {init : AOState I K R nA nB nC J} {o} (h : cmfAoadmm P a init = .ok o)
    (hw : init.weights = none) : o.st.weights = none := by
  obtain ⟨s, hs, hst, -⟩ := fit_ok h
  obtain ⟨l, hf, -, -⟩ := run_ok (follows_init (aoOps P) a none init) rfl hs
  rw [hst]
  have : ∀ {l s}, Hist (aoOps P) none init l s → s.weights = none := by
    intro l s h
    induction h with
    | zero => exact hw
    | snoc _ h2 ih => exact sweep_weights h2 ih
  exact this hf.hist

/-- C90 for the implementation with in-place writes: a first call on distinct objects, then a second call that is given the objects returned by the first one. The
second call returns what one call on the original contents with all iterations returns. (It writes to the arrays of the first result, C45, C46.) -/
theorem C90_heap (P : Problem I K R nA nB nC J) (a : Args) (hr : a.returnErrors = true) (n m : ℕ) (h : Heap) (r : Refs I R nA nB nC) (d : Distinct h r)
    (hX : h.data K J r.X = P.X) {o₁ : Output (Heap × Refs I R nA nB nC)} {d₁ : Diagnostics}
    (h₁ : cmfAoadmmH P { a with nIterMax := n } (h, r) = .ok o₁) (hd₁ : o₁.diag = some d₁) (hm : d₁.message = .maxIter)
    {o₂ : Output (Heap × Refs I R nA nB nC)} (h₂ : cmfAoadmmH P { a with nIterMax := m } o₁.st = .ok o₂) :
    ∃ o₃ d₂, cmfAoadmm P { a with nIterMax := (n + m : ℕ) } { h.state K J r with weights := none, F := absorb r.weights (h.factors K J r) } = .ok o₃ ∧
      o₂.st.1.state K J o₂.st.2 = o₃.st ∧ o₂.diag = some d₂ ∧ o₃.diag = some (joined d₁ d₂) := by
  obtain ⟨e1, e2⟩ := C47 P { a with nIterMax := n } h r d hX
  rw [h₁] at e1
  obtain ⟨hd', hX'⟩ := e2 o₁ h₁
  obtain ⟨f1, -⟩ := C47 P { a with nIterMax := m } o₁.st.1 o₁.st.2 hd' hX'
  rw [h₂] at f1
  simp only [Except.map] at e1 f1
  have hw : o₁.st.2.weights = none := call_weights e1.symm rfl
  have hs : ({ o₁.st.1.state K J o₁.st.2 with weights := none, F := absorb o₁.st.2.weights (o₁.st.1.factors K J o₁.st.2) } : AOState I K R nA nB nC J) =
      o₁.st.1.state K J o₁.st.2 := by
    rw [hw]
    simp only [absorb, Heap.state, hw, Option.getD_none, mul_one]
  rw [hs] at f1
  obtain ⟨-, hc⟩ := C90 P a hr n m _ e1.symm hd₁
  have := (hc hm).2
  rw [← f1] at this
  obtain ⟨o₃, d₂, g1, g2, g3, g4, -⟩ := this
  exact ⟨o₃, d₂, g1, g2.symm, g3, g4⟩

end Verif.Props
