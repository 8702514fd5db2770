import Verif.Props.PresolveLeft

/-!
# C47: presolving again

`C47_not_again` (Props/Presolve.lean) shows that presolving a problem again goes wrong if variables have been
removed. If only constraints and bounds have been changed it does not.
-/

namespace Relp

open Presolve

/-- **C47**, partial: if presolving removed no variable, what it returns can be presolved as a problem that has
not been presolved. No condition on the steps is needed.

Missing: runs in which variables are removed, see `C47_not_again`. -/
theorem C47_fresh_partial {G H : GeneralForm} (hG : G.Fresh) (fuel : ℕ) (h : presolve fuel G = .ok H)
    (hn : H.vars.length = G.vars.length) : H.Fresh := by
  obtain ⟨hc, -⟩ := C73_left hG fuel h
  obtain ⟨-, hnames, row, var, -, hvar, hfrom, -⟩ := C73_part hG fuel h
  have hval : ∀ j, (var j).val = j.val := by
    have hle : ∀ (m : ℕ) (j : Fin H.vars.length), j.val = m → m ≤ (var j).val := by
      intro m
      induction m with
      | zero => intro j _; omega
      | succ m ih =>
        intro j hj
        have h1 := ih ⟨m, by omega⟩ rfl
        have h2 : var ⟨m, by omega⟩ < var j := hvar (Fin.lt_def.2 (by simp only []; omega))
        rw [Fin.lt_def] at h2
        omega
    have hge : ∀ (m : ℕ) (j : Fin H.vars.length), j.val + m + 1 = H.vars.length →
        (var j).val + m + 1 ≤ G.vars.length := by
      intro m
      induction m with
      | zero => intro j _; have := (var j).isLt; omega
      | succ m ih =>
        intro j hj
        have h1 := ih ⟨j.val + 1, by omega⟩ (by simp only []; omega)
        have h2 : var j < var ⟨j.val + 1, by omega⟩ := hvar (Fin.lt_def.2 (by simp only []; omega))
        rw [Fin.lt_def] at h2
        omega
    intro j
    have h1 := hle j.val j rfl
    have h2 := hge (H.vars.length - j.val - 1) j (by omega)
    omega
  have hid : H.fromActive = List.range H.vars.length := by
    apply List.ext_getElem?
    intro k
    by_cases hk : k < H.vars.length
    · rw [List.getElem?_range hk, hfrom ⟨k, hk⟩, hval]
    · rw [List.getElem?_eq_none (by rw [hc.activeLength]; omega), List.getElem?_eq_none (by simp; omega)]
  refine ⟨hc, hid, fun p hp => ?_⟩
  obtain ⟨o, ho, rfl⟩ := List.mem_iff_getElem.1 hp
  have hlen : H.original.length = G.original.length := by
    have := congrArg List.length hnames
    simpa using this
  have hlo : o < H.vars.length := by
    rw [hlen, (fresh_original hG).1] at ho
    omega
  obtain ⟨name, he⟩ := (hc.active o o).1 (by rw [hid, List.getElem?_range hlo])
  rw [List.getElem?_eq_getElem ho] at he
  exact ⟨o, by rw [Option.some.inj he]⟩

/-- **C47**, partial: then, if both times the result is right, the second result is right for the original
problem: the problem or the verdict describes it as if it had been presolved once.

Missing: as above. -/
theorem C47_again_partial {G H : GeneralForm} (hG : G.Fresh) (fuel fuel' : ℕ) (allowed : Abort → Prop)
    (h : presolve fuel G = .ok H) (hn : H.vars.length = G.vars.length)
    (h1 : ResultCorrect G allowed (presolve fuel G))
    (h2 : H.Fresh → H.Proper → ResultCorrect H allowed (presolve fuel' H)) :
    ResultCorrect G allowed (presolve fuel' H) := by
  have hf := C47_fresh_partial hG fuel h hn
  rw [h] at h1
  obtain ⟨⟨-, hp, -, ho⟩, hex, hsound, hcomplete⟩ := h1
  have h2 := h2 hf hp
  have hgood : ∀ {a b c : ℚ}, G.objective.AsGood a b → G.objective.AsGood b c → G.objective.AsGood a c := by
    intro a b c
    cases G.objective with
    | minimize => exact fun h h' => le_trans (α := ℚ) h h'
    | maximize => exact fun h h' => le_trans (α := ℚ) h' h
  cases hr : presolve fuel' H with
  | ok K =>
    rw [hr] at h2
    obtain ⟨⟨k1, k2, k3, k4⟩, k5, k6, k7⟩ := h2
    refine ⟨⟨k1, k2, k3, k4.trans ho⟩, k5, fun z values hz hv => ?_, fun x hx => ?_⟩
    · obtain ⟨y, hy, hyv, hyo⟩ := k6 z values hz hv
      obtain ⟨x, hx, hxv, hxo⟩ := hsound y values hy hyv
      exact ⟨x, hx, hxv, hxo.trans hyo⟩
    · obtain ⟨y, hy, hyo, hyx⟩ := hcomplete x hx
      obtain ⟨z, hz, hzo, hzy⟩ := k7 y hy
      rw [ho] at hzo
      refine ⟨z, hz, hgood hzo hyo, fun k j hkj => ?_⟩
      have hj : j.val < H.vars.length := by have := j.isLt; omega
      rw [hzy k ⟨j.val, hj⟩ hkj]
      exact hyx _ _ (by rw [hf.identity, List.getElem?_range hj])
  | error e =>
    rw [hr] at h2
    match e, h2 with
    | .outOfFuel, _ => trivial
    | .abort a, h2 => exact h2
    | .verdict .infeasible, h2 =>
      intro x hx
      obtain ⟨y, hy, -⟩ := hcomplete x hx
      exact h2 y hy
    | .verdict .unbounded, h2 =>
      rintro ⟨x, hx⟩ M
      obtain ⟨y, hy, -⟩ := hcomplete x hx
      obtain ⟨z, hz, hM⟩ := h2 ⟨y, hy⟩ M
      obtain ⟨values, hv⟩ := hex z
      obtain ⟨x', hx', -, hxo⟩ := hsound z values hz hv
      refine ⟨x', hx', ?_⟩
      rw [ho] at hM
      rw [hxo]
      exact hM
    | .verdict (.finiteOptimum solution), h2 =>
      obtain ⟨y, ⟨hy, hbest⟩, hext, hval⟩ := h2
      obtain ⟨x, hx, hxe, hxo⟩ := hsound y _ hy hext
      refine ⟨x, ⟨hx, fun x' hx' => ?_⟩, hxe, hxo.trans hval⟩
      obtain ⟨y', hy', hg, -⟩ := hcomplete x' hx'
      have := hbest y' hy'
      rw [ho] at this
      rw [hxo]
      cases hob : G.objective with
      | minimize => rw [hob] at this hg; exact le_trans (α := ℚ) this hg
      | maximize => rw [hob] at this hg; exact le_trans (α := ℚ) hg this

/-- The example of C44, presolved twice: the first time a constraint and bounds are changed. -/
example : ResultCorrect Example.textbook (fun a => a = .unreachable) (presolve 100 Example.textbookLeft) := by
  refine C47_again_partial Example.textbook_fresh.1 100 100 _ Example.textbook_presolved rfl
    Example.textbook_correct fun hf hp => ?_
  have h := careful_spec (G := Example.textbookLeft) (fuel := 100) (L := []) (by decide +kernel)
  exact C44_presolve_steps_partial hf hp 100 _ h.1 h.2

end Relp
