import Verif.Soc.Op
import Verif.Force.Lemmas

/-! # DFT+U: the occupation matrices, the Hubbard potential, energies, forces and stress

Model of `src/xc/hubbard/locOrbRoutines.c`, `occupationMatrix.c`, `hubbardInitialization.c`,
`hubbardForce.c`, `hubbardPressure.c`, `hubbardStress.c` and of the Hubbard part of
`src/energy.c`.  The routines for the Γ-point and for k-points share their loops; they are
modelled once over `𝕜` (`ℝ` or `ℂ`), and the places where they differ are parameters.

Simplifications, for the whole file:
* Floating point numbers are real numbers, `int` is unbounded.
* `Atom_Influence_loc_orb` and `locProj` of a process are `PDom.imgs` with the matrix `Orb` in
  `NImg.chi` (as for the nonlocal projectors, `Verif/Pres/Model.lean`).
* An array filled by `malloc`/`calloc` is a total function.  An index below the start of an array
  (displacement `-1` times the number of bands, undefined in C) reads and writes some cell; no
  theorem about the correct result uses such a cell.
* `MPI_Allreduce` is the sum over the processes or groups. -/

namespace Sparc.Hub

open Pres Loop

variable {𝕜 : Type} [RCLike 𝕜]

/-- A type: `atom_solve_flag` (set when a U is given), `nAtomv`, and of `AtmU`: `max_l`, `U`,
`ppl` and `occ`. -/
structure UTyp where
  flag : Bool
  n : ℕ
  lmax : ℕ
  U : ℕ → ℝ
  ppl : ℕ → ℕ
  occ : ℕ → ℤ

/-- `locProj[ityp].nproj`, locOrbRoutines.c:429-435 (the same loop at 741-746 and
occupationMatrix.c:320-325). -/
noncomputable def nproj (T : UTyp) : ℕ :=
  (List.range (T.lmax + 1)).foldl (fun (n l : ℕ) =>
    if T.U l = 0 then n else n + T.ppl l * (2 * l + 1)) 0

/-- `AtmU[ityp].angnum`, hubbardInitialization.c:460-466 (`TEMP_TOL` 1e-12, line 31). -/
noncomputable def angnum (T : UTyp) : ℕ :=
  (List.range (T.lmax + 1)).foldl (fun (n l : ℕ) =>
    if T.U l < 1e-12 then n else n + (2 * l + 1)) 0

/-- `AtmU[ityp].Uval`, hubbardInitialization.c:473-482; the array as the list of the entries
written. -/
noncomputable def uval (T : UTyp) : List ℝ :=
  (List.range (T.lmax + 1)).foldl (fun (v : List ℝ) l =>
    if T.U l < 1e-12 then v
    else (List.range (2 * l + 1)).foldl (fun (v : List ℝ) _ => v ++ [T.U l]) v) []

/-- `CalculateLocalInnerProductIndex`, locOrbRoutines.c:715-757, with `sz` the number of
projectors, and `CalculateOccMatAtomIndex`, occupationMatrix.c:296-338, with its square.  The
state is `atom_index`, `atom_index2`, `id` and the array. -/
def displ (sz : UTyp → ℕ) (Ts : List UTyp) : ℕ → ℤ :=
  (Ts.foldl (fun (st : ℕ × ℕ × ℕ × (ℕ → ℤ)) T =>
    if T.flag = false then
      let a := st.1 + T.n
      (a, if st.2.2.1 = 0 then a else st.2.1, st.2.2)
    else
      let arr := if st.2.2.1 = 0 then Function.update st.2.2.2 st.1 0 else st.2.2.2
      let id := if st.2.2.1 = 0 then st.2.2.1 + 1 else st.2.2.1
      let r := (List.range T.n).foldl (fun (r : ℕ × (ℕ → ℤ)) iat =>
        let arr := if iat = 0 ∧ id ≠ 0 then Function.update r.2 r.1 (r.2 st.2.1) else r.2
        (r.1 + 1, Function.update arr (r.1 + 1) (arr r.1 + sz T))) (st.1, arr)
      (r.1, r.1, id, r.2)) (0, 0, 0, fun _ => -1)).2.2.2

/-- `IP_displ_U`. -/
noncomputable def ipU (Ts : List UTyp) : ℕ → ℤ := displ nproj Ts

/-- `rho_mn_displ`. -/
noncomputable def rhoDispl (Ts : List UTyp) : ℕ → ℤ := displ (fun T => nproj T * nproj T) Ts

/-- `atm_idx`, the search for the last entry that is not negative, locOrbRoutines.c:771-778 and
in every routine below; `-1` when there is none. -/
def lastU (arr : ℕ → ℤ) : ℕ → ℤ
  | 0 => if arr 0 ≥ 0 then 0 else -1
  | j + 1 => if arr (j + 1) ≥ 0 then (j + 1 : ℕ) else lastU arr j

/-- `n_atom`. -/
def natoms (Ts : List UTyp) : ℕ := (Ts.map UTyp.n).sum

/-- The displacements, sizes and cell as the loops over images read them: a type without U is
passed over, as one without projectors is. -/
noncomputable def env (Ts : List UTyp) (L : ℝ × ℝ × ℝ) (occfac : ℝ) (Nkpts : ℕ) : NEnv :=
  ⟨[], fun a => (ipU Ts a).toNat, fun _ => 0, (lastU (ipU Ts) (natoms Ts)).toNat,
    fun i => match Ts[i]? with
      | some T => if T.flag = false then 0 else nproj T
      | none => 0, fun _ => 0, L, occfac, Nkpts⟩

/-- `pre_fac[ang*col + row]`, locOrbRoutines.c:846-862 (hubbardForce.c:339-355,
hubbardPressure.c:324-340, hubbardStress.c:230-247). -/
noncomputable def pre (T : UTyp) (rho : ℕ → ℝ) (ang row col : ℕ) : ℝ :=
  let p : ℝ := 0
  let p := if row = col then p + 0.5 else p
  let p := p - rho (ang * col + row)
  p * (uval T).getD row 0

/-- `pre_fac_alpha`, locOrbRoutines.c:826-873; `rho a` is `rho_mn[a][spin]`. -/
noncomputable def preAlpha (Ts : List UTyp) (ncol : ℕ) (rho : ℕ → ℕ → ℝ) (al : ℕ → 𝕜) : ℕ → 𝕜 :=
  (Ts.foldl (fun (st : ℕ × (ℕ → 𝕜)) T =>
    if T.flag = false then (st.1 + T.n, st.2)
    else if nproj T = 0 then (st.1 + T.n, st.2)
    else (List.range T.n).foldl (fun (st : ℕ × (ℕ → 𝕜)) _ =>
      (st.1 + 1, (List.range ncol).foldl (fun m n => (List.range (nproj T)).foldl (fun m row =>
        Function.update m ((ipU Ts st.1).toNat * ncol + (n * nproj T + row))
          (((List.range (nproj T)).map fun col => ((pre T (rho st.1) (nproj T) row col : ℝ) : 𝕜)
            * al ((ipU Ts st.1).toNat * ncol + (n * nproj T + col))).sum)) m) st.2)) st)
    (0, fun _ => 0)).2

/-- `Vhub_vec_mult`, locOrbRoutines.c:762-906 (`_kpt` 912-1076), on the process `D` of the
communicator `doms`: inner products, their sum over the processes, the factors and the products
with the orbitals added to `Hx`. -/
noncomputable def vhub (Ts : List UTyp) (L : ℝ × ℝ × ℝ) (dV : ℝ) (kv : ℝ × ℝ × ℝ) (ncol : ℕ)
    (ldi ldo : PDom 𝕜 → ℕ) (doms : List (PDom 𝕜)) (rho : ℕ → ℕ → ℝ) (x : PDom 𝕜 → ℕ → 𝕜)
    (D : PDom 𝕜) (Hx : ℕ → 𝕜) : ℕ → 𝕜 :=
  let N := env Ts L 1 1
  let alpha := (doms.map fun D' => Soc.gather N dV kv ncol (ldi D') 0 .SC 0 D' (x D')).sum
  Soc.scatter N kv ncol (ldo D) 0 .SC 0 D (preAlpha Ts ncol rho alpha) Hx

/-! ### The occupation matrix -/

/-- A group of processes with its `spincomm_index`. -/
structure HGrp (𝕜 : Type) extends Grp 𝕜 where
  spidx : ℕ

/-- `sp` and `hub_sp`, occupationMatrix.c:442-446, hubbardForce.c:315-319. -/
def HGrp.sp (P : HGrp 𝕜) (s : ℕ) : ℕ := if P.nsp = 1 then P.spidx else s

/-- `g_n`, occupationMatrix.c:381-390, and `g_nk` in the routine for k-points; for the Γ-point
the weight and the number of k-points are one. -/
noncomputable def gOcc (E : Env) (Nkpts : ℕ) (P : Grp 𝕜) (k s n : ℕ) : ℝ :=
  P.wt k / Nkpts * P.occ (k * P.Ns + (if E.spin = 1 then s * P.Ns * P.Nk else 0) + (P.b0 + n))

/-- `alpha[sp]` for k-point `k`, occupationMatrix.c:457-503 with the sum over the processes; the
copy of the orbitals into `X` (393-424) is read through. -/
noncomputable def alphaOcc (E : Env) (Ts : List UTyp) (L : ℝ × ℝ × ℝ) (P : Grp 𝕜) (k s : ℕ) :
    ℕ → 𝕜 :=
  (P.doms.map fun D => Soc.gather (env Ts L 1 1) E.dV (P.k k) P.ncol (D.nd * P.nsp)
    (k * (D.nd * P.nsp * P.ncol) + s * D.nd) .SC 0 D
    (fun q => D.psi q / ((Real.sqrt E.dV : ℝ) : 𝕜))).sum

/-- Adding the products for one k-point and spin to `rho_mn[sp]`, occupationMatrix.c:506-550 and
the end of the loop over k-points. -/
noncomputable def rhoStep (E : Env) (Ts : List UTyp) (L : ℝ × ℝ × ℝ) (Nkpts : ℕ) (P : Grp 𝕜)
    (k s : ℕ) (m : ℕ → 𝕜) : ℕ → 𝕜 :=
  let al := alphaOcc E Ts L P k s
  (Ts.foldl (fun (st : ℕ × (ℕ → 𝕜)) T =>
    if T.flag = false then (st.1 + T.n, st.2)
    else if nproj T = 0 then (st.1 + T.n, st.2)
    else (List.range T.n).foldl (fun (st : ℕ × (ℕ → 𝕜)) _ =>
      (st.1 + 1, (List.range (nproj T)).foldl (fun m c => (List.range (nproj T)).foldl (fun m r =>
        addAt m ((rhoDispl Ts st.1).toNat + (c * nproj T + r))
          (((List.range P.ncol).map fun n =>
            al ((ipU Ts st.1).toNat * P.ncol + (n * nproj T + r)) * ((gOcc E Nkpts P k s n : ℝ) : 𝕜)
            * (starRingEnd 𝕜) (al ((ipU Ts st.1).toNat * P.ncol + (n * nproj T + c)))).sum)) m)
        st.2)) st) (0, m)).2

/-- `rho_mn[sp]` of a group: all k-points, and the spin `s` of the group with `sp = σ`. -/
noncomputable def rhoGrp (E : Env) (Ts : List UTyp) (L : ℝ × ℝ × ℝ) (Nkpts : ℕ) (P : HGrp 𝕜)
    (σ : ℕ) : ℕ → 𝕜 :=
  (List.range P.Nk).foldl (fun m k => (List.range P.nsp).foldl (fun m s =>
    if P.sp s = σ then rhoStep E Ts L Nkpts P.toGrp k s m else m) m) (fun _ => 0)

/-- Sum over k-point and band groups and exchange between spin groups. -/
noncomputable def rhoAll (E : Env) (Ts : List UTyp) (L : ℝ × ℝ × ℝ) (Nkpts : ℕ)
    (Ps : List (HGrp 𝕜)) (σ : ℕ) : ℕ → 𝕜 :=
  (Ps.map fun P => rhoGrp E Ts L Nkpts P σ).sum

/-- The copy into `pSPARC->rho_mn[a][σ]` at the Γ-point, occupationMatrix.c:592-605. -/
noncomputable def hermG (ang : ℕ) (b : ℕ → ℝ) : ℕ → ℝ :=
  (List.range ang).foldl (fun b c => (List.range' c (ang - c)).foldl (fun b r =>
    Function.update b (c * ang + r) (b (r * ang + c))) b) b

/-- The same for k-points, occupationMatrix.c:930-953. -/
noncomputable def hermK (ang : ℕ) (b : ℕ → ℂ) : ℕ → ℝ :=
  let b := (List.range ang).foldl (fun b c =>
    let b := (List.range' (c + 1) (ang - (c + 1))).foldl (fun b r =>
      let avg := 0.5 * (b (c * ang + r) + (starRingEnd ℂ) (b (r * ang + c)))
      Function.update (Function.update b (c * ang + r) avg) (r * ang + c) ((starRingEnd ℂ) avg)) b
    Function.update b (c * ang + c) ((b (c * ang + c)).re : ℂ)) b
  fun q => (b q).re

/-- `rho_mn[a][σ]` after `Calculate_occMat` of the Γ-point for an atom of type `T`. -/
noncomputable def occG (E : Env) (Ts : List UTyp) (L : ℝ × ℝ × ℝ) (Ps : List (HGrp ℝ)) (T : UTyp)
    (a σ : ℕ) : ℕ → ℝ :=
  hermG (angnum T) fun q => rhoAll E Ts L 1 Ps σ ((rhoDispl Ts a).toNat + q)

/-- `rho_mn[a][σ]` after `Calculate_occMat_kpt`. -/
noncomputable def occK (E : Env) (Ts : List UTyp) (L : ℝ × ℝ × ℝ) (Nkpts : ℕ) (Ps : List (HGrp ℂ))
    (T : UTyp) (a σ : ℕ) : ℕ → ℝ :=
  hermK (nproj T) fun q => rhoAll E Ts L Nkpts Ps σ ((rhoDispl Ts a).toNat + q)

/-! ### Energies -/

/-- `Compute_Hubbard_Energy`, hubbardStress.c:206-268; `rho a σ` is `rho_mn[a][σ]`. -/
noncomputable def hubEnergy (Ts : List UTyp) (Nspinor : ℕ) (occfac : ℝ)
    (rho : ℕ → ℕ → ℕ → ℝ) : ℝ :=
  (Ts.foldl (fun (st : ℕ × ℝ) T =>
    if T.flag = false then (st.1 + T.n, st.2)
    else (List.range T.n).foldl (fun (st : ℕ × ℝ) _ =>
      (st.1 + 1, (List.range Nspinor).foldl (fun (e : ℝ) σ =>
        e + occfac * (List.range (nproj T)).foldl (fun (t : ℝ) col =>
          t + ((List.range (nproj T)).map fun m => pre T (rho st.1 σ) (nproj T) col m
            * rho st.1 σ (nproj T * col + m)).sum) 0) st.2)) st) (0, 0)).2

/-- `E_Hub_HF` and `E_Hub`, energy.c:119-161. -/
noncomputable def hubE (Ts : List UTyp) (Nspinor : ℕ) (occfac : ℝ)
    (rho : ℕ → ℕ → ℕ → ℝ) : ℝ × ℝ :=
  (Ts.foldl (fun (st : ℕ × ℝ × ℝ) T =>
    if T.flag = false then (st.1 + T.n, st.2)
    else (List.range T.n).foldl (fun (st : ℕ × ℝ × ℝ) _ =>
      (st.1 + 1, (List.range Nspinor).foldl (fun (e : ℝ × ℝ) σ =>
        let sq := fun q : ℕ => ((List.range (angnum T)).map fun m =>
          rho st.1 σ (angnum T * m + q % angnum T) * rho st.1 σ (angnum T * (q / angnum T) + m)).sum
        let loc := (List.range (angnum T)).foldl (fun (t : ℝ × ℝ) col =>
          (t.1 + 0.5 * (uval T).getD col 0 * sq (angnum T * col + col),
           t.2 + 0.5 * (uval T).getD col 0
            * (rho st.1 σ (angnum T * col + col) - sq (angnum T * col + col)))) (0, 0)
        (e.1 + occfac * loc.1, e.2 + occfac * loc.2)) st.2)) st)
    (0, 0, 0)).2

/-- `Etot` from its terms, energy.c:163-189 (`usefock` counts the outer loops of exact exchange;
`Exc` is increased by `Eexx` in the second branch). -/
noncomputable def etot (usefock : ℕ) (Eband E1 E2 E3 EHubHF Exc Esc Ent Eexx : ℝ) : ℝ :=
  if usefock = 0 ∨ usefock % 2 = 1 then Eband + E1 - E2 - E3 + EHubHF + Exc + Esc + Ent
  else
    let Exc := Exc + Eexx
    Eband + E1 - E2 - E3 + Exc + Esc + Ent - 2 * Eexx

/-! ### Forces, pressure and stress -/

/-- When the loop over types that fills `alpha_gn` advances the atom counter at a type without U:
always (hubbardStress.c:391-397, where `first_id` stays zero), before the first type with U only
(hubbardForce.c:286-294, 732-740, hubbardStress.c:894-903), never (hubbardPressure.c:262, 649). -/
inductive Rule
  | always
  | first
  | never
  deriving DecidableEq

/-- The atoms visited by the loops that fill `alpha_gn`, with the value of the counter. -/
def aWalk (rule : Rule) (Ts : List UTyp) : List (UTyp × ℕ) :=
  (Ts.foldl (fun (st : ℕ × ℕ × List (UTyp × ℕ)) T =>
    if T.flag = false then
      (match rule with
        | .always => st.1 + T.n
        | .first => if st.2.1 = 0 then st.1 + T.n else st.1
        | .never => st.1, st.2)
    else
      let r := (List.range T.n).foldl (fun (r : ℕ × List (UTyp × ℕ)) _ =>
        (r.1 + 1, r.2 ++ [(T, r.1)])) (st.1, st.2.2)
      (r.1, if st.2.1 = 0 then st.2.1 + 1 else st.2.1, r.2)) (0, 0, [])).2.2

/-- The atoms visited by the second loop of the forces with `atom_index` and `atom_index2`,
hubbardForce.c:323-334 and 412 (kpt 772-783). -/
def fWalk (Ts : List UTyp) : List (UTyp × ℕ × ℕ) :=
  (Ts.foldl (fun (st : ℕ × ℕ × ℕ × List (UTyp × ℕ × ℕ)) T =>
    if T.flag = false then
      let a := st.1 + T.n
      (a, if st.2.2.1 = 0 then a else st.2.1, st.2.2)
    else
      let r := (List.range T.n).foldl (fun (r : ℕ × ℕ × List (UTyp × ℕ × ℕ)) _ =>
        (r.1 + 1, r.2.1 + 1, r.2.2 ++ [(T, r.1, r.2.1)])) (st.1, st.2.1, st.2.2.2)
      (r.1, r.2.1, if st.2.2.1 = 0 then st.2.2.1 + 1 else st.2.2.1, r.2.2)) (0, 0, 0, [])).2.2.2

/-- A read at an offset that may be negative. -/
def rd (m : ℕ → 𝕜) (q : ℤ) : 𝕜 := m q.toNat

/-- `alpha_gn + spinorshift`, hubbardForce.c:280-309 (kpt 727-757), hubbardPressure.c:255-277,
hubbardStress.c:386-410; `off` is `spinorshift`. -/
noncomputable def alphaGn (rule : Rule) (Ts : List UTyp) (ncol off : ℕ) (g : ℕ → ℝ)
    (al : ℕ → 𝕜) : ℤ → 𝕜 :=
  (aWalk rule Ts).foldl (fun (m : ℤ → 𝕜) Ta => (List.range ncol).foldl (fun m (n : ℕ) =>
    (List.range (nproj Ta.1)).foldl (fun m (p : ℕ) =>
      Function.update m (ipU Ts Ta.2 * ncol + (n * nproj Ta.1 + p : ℕ))
        (rd al (off + (ipU Ts Ta.2 * ncol + (n * nproj Ta.1 + p : ℕ))) * ((g n : ℝ) : 𝕜))) m) m)
    (fun _ => 0)

/-- `spinorshift`, hubbardForce.c:729. -/
def shift (N : NEnv) (P : Grp 𝕜) (k s : ℕ) : ℕ :=
  N.IP N.natom * P.ncol * P.nsp * k + N.IP N.natom * P.ncol * s

/-- `Compute_force_hubbard_by_integrals`, hubbardForce.c:229-425 (kpt 673-900): `al`, `be d` are
the integrals after their sum over the processes, `F` is `force_hub`. -/
noncomputable def hubForce (E : Env) (Ts : List UTyp) (L : ℝ × ℝ × ℝ) (occfac : ℝ) (Nkpts : ℕ)
    (P : HGrp 𝕜) (rho : ℕ → ℕ → ℕ → ℝ) (al : ℕ → 𝕜) (be : Fin 3 → ℕ → 𝕜) (F : Force.Forces) :
    Force.Forces :=
  let N := env Ts L occfac Nkpts
  (List.range P.Nk).foldl (fun F k => (List.range P.nsp).foldl (fun F s =>
    let off := shift N P.toGrp k s
    let ag := alphaGn .first Ts P.ncol off (fun n => occfac * gOcc E Nkpts P.toGrp k s n) al
    (fWalk Ts).foldl (fun F w =>
      let ang := angnum w.1
      let at' := fun (n r : ℕ) => ipU Ts w.2.2 * P.ncol + (n * ang + r : ℕ)
      Force.bump F w.2.1 (fun d => -((List.range ang).map fun row => RCLike.re
        (((List.range ang).map fun m => ((pre w.1 (rho w.2.1 (P.sp s)) ang row m : ℝ) : 𝕜)
          * (2 * ((List.range P.ncol).map fun n => ag (at' n m)
            * rd (be d) (off + at' n row)).sum)).sum)).sum)) F) F) F

/-- The sum of the traces for one integral array, hubbardPressure.c:283-360 (one direction),
hubbardStress.c:426-560 (one component): `be` is the array. -/
noncomputable def hubTrace (rule : Rule) (E : Env) (Ts : List UTyp) (L : ℝ × ℝ × ℝ) (occfac : ℝ)
    (Nkpts : ℕ) (P : HGrp 𝕜) (rho : ℕ → ℕ → ℕ → ℝ) (al be : ℕ → 𝕜) : ℝ :=
  let N := env Ts L occfac Nkpts
  (List.range P.Nk).foldl (fun t k => (List.range P.nsp).foldl (fun t s =>
    let off := shift N P.toGrp k s
    let ag := alphaGn rule Ts P.ncol off (fun n => gOcc E Nkpts P.toGrp k s n) al
    (aWalk .always Ts).foldl (fun t w =>
      let ang := nproj w.1
      let at' := fun (n r : ℕ) => ipU Ts w.2 * P.ncol + (n * ang + r : ℕ)
      t - occfac * ((List.range ang).map fun col => RCLike.re
        (((List.range ang).map fun m => ((pre w.1 (rho w.2 (P.sp s)) ang col m : ℝ) : 𝕜)
          * (2 * ((List.range P.ncol).map fun n => rd be (off + at' n m) * ag (at' n col)).sum)).sum)).sum)
      t) t) 0

/-- `pressure_hub`, hubbardPressure.c: the three directions, the sum over the groups and the
energy. -/
noncomputable def hubPressure (rule : Rule) (E : Env) (Ts : List UTyp) (L : ℝ × ℝ × ℝ)
    (occfac : ℝ) (Nkpts : ℕ) (Nspinor : ℕ) (Ps : List (HGrp 𝕜)) (rho : ℕ → ℕ → ℕ → ℝ) : ℝ :=
  let N := env Ts L occfac Nkpts
  (Ps.map fun P => ((List.finRange 3).map fun d => hubTrace rule E Ts L occfac Nkpts P rho
    (P.doms.map fun D => alpha E N P.toGrp .SC D).sum
    (P.doms.map fun D => betaP E N P.toGrp .SC D d).sum).sum).sum
    - hubEnergy Ts Nspinor occfac rho

/-- Component `(c, c')` of `stress_hub`, hubbardStress.c. -/
noncomputable def hubStress (rule : Rule) (E : Env) (Ts : List UTyp) (L : ℝ × ℝ × ℝ)
    (occfac : ℝ) (Nkpts : ℕ) (Nspinor : ℕ) (cell : ℝ) (Ps : List (HGrp 𝕜))
    (rho : ℕ → ℕ → ℕ → ℝ) (c c' : Fin 3) : ℝ :=
  let N := env Ts L occfac Nkpts
  let t := (Ps.map fun P => hubTrace rule E Ts L occfac Nkpts P rho
    (P.doms.map fun D => alpha E N P.toGrp .SC D).sum
    (P.doms.map fun D => betaS E N P.toGrp .SC D c c').sum).sum
  (if c = c' then t - hubEnergy Ts Nspinor occfac rho else t) / cell

/-! ### Initial occupations -/

/-- `l_states` and `l_occ`, hubbardInitialization.c:568-587. -/
noncomputable def lStates (T : UTyp) : List (ℕ × ℤ) :=
  (List.range (T.lmax + 1)).foldl (fun (v : List (ℕ × ℤ)) l =>
    if T.U l < 1e-12 then v
    else
      let ldispl := (List.range (l + 1)).foldl (fun (d : ℤ) ll => d + T.ppl ll) (-1)
      (List.range (2 * l + 1)).foldl (fun (v : List (ℕ × ℤ)) _ =>
        v ++ [(2 * l + 1, T.occ ldispl.toNat)]) v) []

/-- Diagonal entry `m` of `rho_mn[a][σ]` and `rho_mn_at[a][σ]`,
hubbardInitialization.c:552-566 and 589-619; `mag` is `atom_spin[3 a + 2]`. -/
noncomputable def initOcc (T : UTyp) (spin : ℕ) (mag : ℝ) (σ m : ℕ) : ℝ :=
  let st := (lStates T).getD m (0, 0)
  let maj : Option ℕ := if spin = 1 then (if mag > 0 then some 0 else if mag < 0 then some 1 else none)
    else none
  match maj with
  | some j =>
    if st.2 ≥ st.1 then (if σ = j then 1 else ((st.2 - st.1 : ℤ) : ℝ) / st.1)
    else if σ = j then ((st.2 - st.1 : ℤ) : ℝ) / st.1 else 0
  | none => 0.5 * st.2 / st.1

end Sparc.Hub
