import Verif.Model.Probability

/-!
# Model of src/physics/*.c

Every helper returns its code and the value left in its output argument. A `uint8_t` is a natural number (the theorems hold for all
of them). Constants are those of consts.h (double precision build; the single precision variant of
`zsl_phy_atom_bohr_orb_radius` only scales numerator and denominator by the same power of ten). Output arguments
do not alias inputs. misc.c, relativity.c and waves.c contain no functions.
-/

namespace Verif

open Out

variable {R : Type} [CReal R]

/-- consts.h:33 `ZSL_PERM_FREE_SPACE`. -/
def zslPermFreeSpace : R := lit 8.85e-12

/-- consts.h:39 `ZSL_UNIV_GRAV`. -/
def zslUnivGrav : R := lit 6.67408e-11

/-- consts.h:51 `ZSL_GRAV_EARTH`. -/
def zslGravEarth : R := lit 9.807

/-- consts.h:57 `ZSL_NUCL_RADIUS`. -/
def zslNuclRadius : R := lit 1.25e-15

/-- consts.h:67 `ZSL_PLANCK`. -/
def zslPlanck : R := lit 6.62607015e-34

/-- consts.h:73 `ZSL_RED_PLANCK`. -/
def zslRedPlanck : R := lit 1.054571800e-34

/-- consts.h:79 `ZSL_E_CHARGE`. -/
def zslECharge : R := lit 1.602176634e-19

/-- consts.h:85 `ZSL_COULOMB`. -/
def zslCoulomb : R := lit 8.987551787e9

/-- consts.h:90 `ZSL_E_MASS`. -/
def zslEMass : R := lit 9.1093835611e-31

/-- consts.h:95 `ZSL_LIGHT_SPEED`. -/
def zslLightSpeed : R := lit 299792458

/-- consts.h:100 `ZSL_IDEAL_GAS_CONST`. -/
def zslIdealGas : R := lit 8.314462618

/-! ### atomic.c -/

/-- physics/atomic.c:12-23 `zsl_phy_atom_nucl_radius`. -/
def phyAtomNuclRadius (a : Nat) : Int × R :=
  if a == 0 then (-EINVAL, CReal.nan)
  else (0, zslNuclRadius * CReal.pow (CReal.ofNat a) (lit 1 / lit 3) * lit 1e15)

/-- physics/atomic.c:25-49 `zsl_phy_atom_bohr_orb_radius`. -/
def phyAtomBohrOrbRadius (z n : Nat) : Int × R :=
  if z == 0 then (-EINVAL, CReal.nan)
  else (0, (CReal.ofNat n * CReal.ofNat n * zslRedPlanck * zslRedPlanck * lit 1e9) / (CReal.ofNat z * zslCoulomb * zslECharge * zslECharge * zslEMass))

/-- physics/atomic.c:51-63 `zsl_phy_atom_bohr_orb_vel`. -/
def phyAtomBohrOrbVel (z n : Nat) : Int × R :=
  if z == 0 then (-EINVAL, CReal.nan)
  else (0, (CReal.ofNat z * zslCoulomb * zslECharge * zslECharge * lit 1e-3) / (CReal.ofNat n * zslRedPlanck))

/-- physics/atomic.c:65-78 `zsl_phy_atom_bohr_orb_ener`. -/
def phyAtomBohrOrbEner (z n : Nat) : Int × R :=
  if z == 0 then (-EINVAL, CReal.nan)
  else (0, -(CReal.pow ((CReal.ofNat z * zslCoulomb * zslECharge * zslECharge) / (CReal.ofNat n * zslRedPlanck)) (lit 2) * lit 0.5 * zslEMass) / lit 1.602176634e-19)

/-- physics/atomic.c:80-92 `zsl_phy_atom_rad_decay`. -/
def phyAtomRadDecay (qi t lam : R) : Int × R :=
  if CReal.lt t (lit 0) || CReal.lt lam (lit 0) then (-EINVAL, CReal.nan)
  else (0, qi * CReal.pow zslE (-lam * t))

/-- physics/atomic.c:94-106 `zsl_phy_atom_bragg`. -/
def phyAtomBragg (n : Nat) (theta lam : R) : Int × R :=
  if CReal.lt lam (lit 0) || CReal.le (CReal.sin theta) (lit 0) then (-EINVAL, CReal.nan)
  else (0, (CReal.ofNat n * lam) / (lit 2 * CReal.sin theta))

/-! ### dynamics.c -/

/-- physics/dynamics.c:12-23 `zsl_phy_dyn_newton`. -/
def phyDynNewton (m accel : R) : Int × R :=
  if CReal.lt m (lit 0) then (-EINVAL, CReal.nan)
  else (0, m * accel)

/-- physics/dynamics.c:25-36 `zsl_phy_dyn_fric`. -/
def phyDynFric (n mu : R) : Int × R :=
  if CReal.lt mu (lit 0) || CReal.gt mu (lit 1) then (-EINVAL, CReal.nan)
  else (0, n * mu)

/-- physics/dynamics.c:38-49 `zsl_phy_dyn_normal`. -/
def phyDynNormal (m theta : R) : Int × R :=
  if CReal.lt m (lit 0) then (-EINVAL, CReal.nan)
  else (0, m * zslGravEarth * CReal.cos theta)

/-- physics/dynamics.c:51-62 `zsl_phy_dyn_pendul_period`. -/
def phyDynPendulPeriod (l : R) : Int × R :=
  if CReal.lt l (lit 0) then (-EINVAL, CReal.nan)
  else (0, lit 2 * zslPi * CReal.sqrt (l / zslGravEarth))

/-- physics/dynamics.c:64-75 `zsl_phy_dyn_pendul_max_speed`. -/
def phyDynPendulMaxSpeed (l oi : R) : Int × R :=
  if CReal.lt l (lit 0) then (-EINVAL, CReal.nan)
  else (0, CReal.sqrt (lit 2 * zslGravEarth * l * (lit 1 - CReal.cos oi)))

/-- physics/dynamics.c:77-88 `zsl_phy_dyn_tension`. -/
def phyDynTension (m a : R) : Int × R :=
  if CReal.lt m (lit 0) then (-EINVAL, CReal.nan)
  else (0, m * zslGravEarth + m * a)

/-- physics/dynamics.c:90-101 `zsl_phy_dyn_lever`. -/
def phyDynLever (d1 f1 d2 : R) : Int × R :=
  if CReal.lt d1 (lit 0) || CReal.le d2 (lit 0) then (-EINVAL, CReal.nan)
  else (0, (d1 * f1) / d2)

/-! ### eleccomp.c -/

/-- physics/eleccomp.c:12-23 `zsl_phy_ecmp_capac_cpv`. -/
def phyEcmpCapacCpv (q v : R) : Int × R :=
  if CReal.eq v (lit 0) then (-EINVAL, CReal.nan)
  else (0, q / v)

/-- physics/eleccomp.c:25-36 `zsl_phy_ecmp_capac_ad`. -/
def phyEcmpCapacAd (a d : R) : Int × R :=
  if CReal.eq d (lit 0) then (-EINVAL, CReal.nan)
  else (0, zslPermFreeSpace * (a / d))

/-- physics/eleccomp.c:38-44 `zsl_phy_ecmp_ener_capac`. -/
def phyEcmpEnerCapac (c v : R) : Int × R :=
  (0, lit 0.5 * c * v * v)

/-- physics/eleccomp.c:46-52 `zsl_phy_ecmp_ener_induc`. -/
def phyEcmpEnerInduc (l i : R) : Int × R :=
  (0, lit 0.5 * l * i * i)

/-- physics/eleccomp.c:54-65 `zsl_phy_ecmp_trans`. -/
def phyEcmpTrans (t1 : Nat) (v1 : R) (t2 : Nat) : Int × R :=
  if t1 == 0 then (-EINVAL, CReal.nan)
  else (0, (v1 * CReal.ofNat t2) / CReal.ofNat t1)

/-- physics/eleccomp.c:67-74 `zsl_phy_ecmp_rlc_volt`. -/
def phyEcmpRlcVolt (vr vl vc : R) : Int × R :=
  (0, CReal.sqrt (vr * vr + CReal.pow (vl - vc) (lit 2)))

/-- physics/eleccomp.c:76-88 `zsl_phy_ecmp_rc_charg_i`. -/
def phyEcmpRcChargI (r c t i0 : R) : Int × R :=
  if CReal.le (r * c) (lit 0) || CReal.lt i0 (lit 0) || CReal.lt t (lit 0) then (-EINVAL, CReal.nan)
  else (0, i0 * CReal.exp (-t / (r * c)))

/-- physics/eleccomp.c:90-102 `zsl_phy_ecmp_rc_charg_q`. -/
def phyEcmpRcChargQ (r c t q0 : R) : Int × R :=
  if CReal.le (r * c) (lit 0) || CReal.lt q0 (lit 0) || CReal.lt t (lit 0) then (-EINVAL, CReal.nan)
  else (0, q0 * (lit 1 - CReal.exp (-t / (r * c))))

/-- physics/eleccomp.c:104-116 `zsl_phy_ecmp_rc_discharg_i`. -/
def phyEcmpRcDischargI (r c t i0 : R) : Int × R :=
  if CReal.le (r * c) (lit 0) || CReal.lt i0 (lit 0) || CReal.lt t (lit 0) then (-EINVAL, CReal.nan)
  else (0, -i0 * CReal.exp (-t / (r * c)))

/-- physics/eleccomp.c:118-130 `zsl_phy_ecmp_rc_discharg_q`. -/
def phyEcmpRcDischargQ (r c t q0 : R) : Int × R :=
  if CReal.le (r * c) (lit 0) || CReal.lt q0 (lit 0) || CReal.lt t (lit 0) then (-EINVAL, CReal.nan)
  else (0, q0 * CReal.exp (-t / (r * c)))

/-- physics/eleccomp.c:132-144 `zsl_phy_ecmp_rl_current`. -/
def phyEcmpRlCurrent (r l t i0 : R) : Int × R :=
  if CReal.le l (lit 0) || CReal.lt i0 (lit 0) || CReal.lt t (lit 0) || CReal.lt r (lit 0) then (-EINVAL, CReal.nan)
  else (0, i0 * (lit 1 - CReal.exp (-(r * t) / l)))

/-! ### electric.c -/

/-- physics/electric.c:12-23 `zsl_phy_elec_charge_dens`. -/
def phyElecChargeDens (q v : R) : Int × R :=
  if CReal.le v (lit 0) then (-EINVAL, CReal.nan)
  else (0, q / v)

/-- physics/electric.c:25-36 `zsl_phy_elec_force`. -/
def phyElecForce (q1 q2 r : R) : Int × R :=
  if CReal.le r (lit 0) then (-EINVAL, CReal.nan)
  else (0, (zslCoulomb * q1 * q2) / (r * r))

/-- physics/electric.c:38-44 `zsl_phy_elec_force2`. -/
def phyElecForce2 (q e : R) : Int × R :=
  (0, q * e)

/-- physics/electric.c:46-57 `zsl_phy_elec_field`. -/
def phyElecField (q r : R) : Int × R :=
  if CReal.le r (lit 0) then (-EINVAL, CReal.nan)
  else (0, (zslCoulomb * q) / (r * r))

/-- physics/electric.c:59-70 `zsl_phy_elec_pot_ener`. -/
def phyElecPotEner (q1 q2 r : R) : Int × R :=
  if CReal.le r (lit 0) then (-EINVAL, CReal.nan)
  else (0, (zslCoulomb * q1 * q2) / r)

/-- physics/electric.c:72-83 `zsl_phy_elec_potential`. -/
def phyElecPotential (q r : R) : Int × R :=
  if CReal.le r (lit 0) then (-EINVAL, CReal.nan)
  else (0, (zslCoulomb * q) / r)

/-- physics/electric.c:85-96 `zsl_phy_elec_flux`. -/
def phyElecFlux (e a theta : R) : Int × R :=
  if CReal.lt e (lit 0) || CReal.lt a (lit 0) then (-EINVAL, CReal.nan)
  else (0, e * a * CReal.cos theta)

/-! ### electricity.c -/

/-- physics/electricity.c:13-24 `zsl_phy_elcty_current`. -/
def phyElctyCurrent (q t : R) : Int × R :=
  if CReal.le t (lit 0) then (-EINVAL, CReal.nan)
  else (0, q / t)

/-- physics/electricity.c:26-42 `zsl_phy_elcty_res_series`. -/
def phyElctyResSeries (v : Vec R) : Out (Int × R) := do
  let c ← forRet v.sz (fun j (_ : Unit) => do
    let a ← rd v.data j
    if CReal.lt a (lit 0) then return Ctl.ret (-EINVAL, CReal.nan) else return Ctl.next ()) ()
  match c with
  | .ret r => return r
  | .next _ =>
    let r ← forN v.sz (fun j r => do
      let a ← rd v.data j
      return (r + a)) (lit 0)
    return (0, r)

/-- physics/electricity.c:44-63 `zsl_phy_elcty_res_parallel`. -/
def phyElctyResParallel (v : Vec R) : Out (Int × R) := do
  let c ← forRet v.sz (fun j (_ : Unit) => do
    let a ← rd v.data j
    if CReal.le a (lit 0) then return Ctl.ret (-EINVAL, CReal.nan) else return Ctl.next ()) ()
  match c with
  | .ret r => return r
  | .next _ =>
    let r ← forN v.sz (fun j r => do
      let a ← rd v.data j
      return (r + lit 1 / a)) (lit 0)
    return (0, lit 1 / r)

/-- physics/electricity.c:65-84 `zsl_phy_elcty_cap_series`. -/
def phyElctyCapSeries (v : Vec R) : Out (Int × R) := do
  let c ← forRet v.sz (fun j (_ : Unit) => do
    let a ← rd v.data j
    if CReal.le a (lit 0) then return Ctl.ret (-EINVAL, CReal.nan) else return Ctl.next ()) ()
  match c with
  | .ret r => return r
  | .next _ =>
    let r ← forN v.sz (fun j r => do
      let a ← rd v.data j
      return (r + lit 1 / a)) (lit 0)
    return (0, lit 1 / r)

/-- physics/electricity.c:86-102 `zsl_phy_elcty_cap_parallel`. -/
def phyElctyCapParallel (v : Vec R) : Out (Int × R) := do
  let c ← forRet v.sz (fun j (_ : Unit) => do
    let a ← rd v.data j
    if CReal.lt a (lit 0) then return Ctl.ret (-EINVAL, CReal.nan) else return Ctl.next ()) ()
  match c with
  | .ret r => return r
  | .next _ =>
    let r ← forN v.sz (fun j r => do
      let a ← rd v.data j
      return (r + a)) (lit 0)
    return (0, r)

/-- physics/electricity.c:104-115 `zsl_phy_elcty_resistivity`. -/
def phyElctyResistivity (r a l : R) : Int × R :=
  if CReal.lt a (lit 0) || CReal.le l (lit 0) || CReal.lt r (lit 0) then (-EINVAL, CReal.nan)
  else (0, r * (a / l))

/-- physics/electricity.c:117-128 `zsl_phy_elcty_ohm_law`. -/
def phyElctyOhmLaw (i r : R) : Int × R :=
  if CReal.lt r (lit 0) then (-EINVAL, CReal.nan)
  else (0, i * r)

/-- physics/electricity.c:130-136 `zsl_phy_elcty_power_vi`. -/
def phyElctyPowerVi (v i : R) : Int × R :=
  (0, v * i)

/-- physics/electricity.c:138-149 `zsl_phy_elcty_power_ir`. -/
def phyElctyPowerIr (i r : R) : Int × R :=
  if CReal.lt r (lit 0) then (-EINVAL, CReal.nan)
  else (0, i * i * r)

/-- physics/electricity.c:151-162 `zsl_phy_elcty_power_vr`. -/
def phyElctyPowerVr (v r : R) : Int × R :=
  if CReal.le r (lit 0) then (-EINVAL, CReal.nan)
  else (0, v * v / r)

/-! ### energy.c -/

/-- physics/energy.c:12-23 `zsl_phy_ener_kin`. -/
def phyEnerKin (v m : R) : Int × R :=
  if CReal.lt m (lit 0) then (-EINVAL, CReal.nan)
  else (0, lit 0.5 * m * v * v)

/-- physics/energy.c:25-36 `zsl_phy_ener_rot`. -/
def phyEnerRot (omega i : R) : Int × R :=
  if CReal.lt i (lit 0) then (-EINVAL, CReal.nan)
  else (0, lit 0.5 * i * omega * omega)

/-- physics/energy.c:38-49 `zsl_phy_ener_grav_pot`. -/
def phyEnerGravPot (m h : R) : Int × R :=
  if CReal.lt m (lit 0) then (-EINVAL, CReal.nan)
  else (0, m * zslGravEarth * h)

/-- physics/energy.c:51-62 `zsl_phy_ener_elas_pot`. -/
def phyEnerElasPot (k dist : R) : Int × R :=
  if CReal.lt k (lit 0) then (-EINVAL, CReal.nan)
  else (0, lit 0.5 * k * dist * dist)

/-- physics/energy.c:64-75 `zsl_phy_ener_power`. -/
def phyEnerPower (ener time : R) : Int × R :=
  if CReal.le time (lit 0) then (-EINVAL, CReal.nan)
  else (0, ener / time)

/-- physics/energy.c:77-88 `zsl_phy_ener_fric`. -/
def phyEnerFric (fric dist : R) : Int × R :=
  if CReal.lt dist (lit 0) || CReal.lt fric (lit 0) then (-EINVAL, CReal.nan)
  else (0, -fric * dist)

/-- physics/energy.c:90-97 `zsl_phy_ener_mec`. -/
def phyEnerMec (ke rke ug ue : R) : Int × R :=
  (0, ke + rke + ug + ue)

/-- physics/energy.c:99-109 `zsl_phy_ener_final`. -/
def phyEnerFinal (ei1 ei2 ei3 ei4 ef1 ef2 ef3 : R) : Int × R :=
  (0, ei1 + ei2 + ei3 + ei4 - ef1 - ef2 - ef3)

/-- physics/energy.c:111-122 `zsl_phy_ener_photon`. -/
def phyEnerPhoton (f : R) : Int × R :=
  if CReal.lt f (lit 0) then (-EINVAL, CReal.nan)
  else (0, (zslPlanck * f) / lit 1.602176634e-19)

/-- physics/energy.c:124-138 `zsl_phy_ener_photon2`. -/
def phyEnerPhoton2 (lam : R) : Int × R :=
  if CReal.le lam (lit 0) then (-EINVAL, CReal.nan)
  else
    let lam := lam * lit 1e-9
    (0, (zslPlanck * zslLightSpeed) / (lam * lit 1.602176634e-19))

/-! ### fluids.c -/

/-- physics/fluids.c:12-23 `zsl_phy_fluid_dens`. -/
def phyFluidDens (m v : R) : Int × R :=
  if CReal.lt m (lit 0) || CReal.le v (lit 0) then (-EINVAL, CReal.nan)
  else (0, m / v)

/-- physics/fluids.c:25-36 `zsl_phy_fluid_simple_press`. -/
def phyFluidSimplePress (f a : R) : Int × R :=
  if CReal.lt f (lit 0) || CReal.le a (lit 0) then (-EINVAL, CReal.nan)
  else (0, f / a)

/-- physics/fluids.c:38-49 `zsl_phy_fluid_press`. -/
def phyFluidPress (p0 h d : R) : Int × R :=
  if CReal.lt p0 (lit 0) || CReal.lt h (lit 0) || CReal.lt d (lit 0) then (-EINVAL, CReal.nan)
  else (0, p0 + h * d * zslGravEarth * lit 1e-3)

/-- physics/fluids.c:51-62 `zsl_phy_fluid_bouyant_force`. -/
def phyFluidBouyantForce (v d : R) : Int × R :=
  if CReal.lt v (lit 0) || CReal.lt d (lit 0) then (-EINVAL, CReal.nan)
  else (0, v * d * zslGravEarth * lit 1e-3)

/-- physics/fluids.c:64-76 `zsl_phy_fluid_flow_rate`. -/
def phyFluidFlowRate (a1 v1 a2 : R) : Int × R :=
  if CReal.lt v1 (lit 0) || CReal.lt a1 (lit 0) || CReal.le a2 (lit 0) then (-EINVAL, CReal.nan)
  else (0, (a1 * v1) / a2)

/-- physics/fluids.c:78-90 `zsl_phy_fluid_force_prop`. -/
def phyFluidForceProp (a1 f1 a2 : R) : Int × R :=
  if CReal.lt f1 (lit 0) || CReal.lt a2 (lit 0) || CReal.le a1 (lit 0) then (-EINVAL, CReal.nan)
  else (0, (a2 * f1) / a1)

/-- physics/fluids.c:92-108 `zsl_phy_fluid_bernoulli`. -/
def phyFluidBernoulli (d v1 p1 v2 : R) : Int × R :=
  if CReal.lt v1 (lit 0) || CReal.lt v2 (lit 0) || CReal.lt p1 (lit 0) || CReal.lt d (lit 0) then (-EINVAL, CReal.nan)
  else (0, p1 + lit 0.5 * d * (v1 * v1 - v2 * v2) * lit 1e-3)

/-- physics/fluids.c:110-121 `zsl_phy_fluid_volume_flow_rate`. -/
def phyFluidVolumeFlowRate (vel a : R) : Int × R :=
  if CReal.lt vel (lit 0) || CReal.lt a (lit 0) then (-EINVAL, CReal.nan)
  else (0, vel * a)

/-! ### gases.c -/

/-- physics/gases.c:12-23 `zsl_phy_gas_av_vel`. -/
def phyGasAvVel (m n t : R) : Int × R :=
  if CReal.le m (lit 0) || CReal.lt n (lit 0) || CReal.lt t (lit 0) then (-EINVAL, CReal.nan)
  else (0, CReal.sqrt ((lit 3 * n * zslIdealGas * t) / m))

/-- physics/gases.c:25-36 `zsl_phy_gas_press`. -/
def phyGasPress (v n t : R) : Int × R :=
  if CReal.le v (lit 0) || CReal.lt n (lit 0) || CReal.lt t (lit 0) then (-EINVAL, CReal.nan)
  else (0, (n * zslIdealGas * t) / v)

/-- physics/gases.c:38-49 `zsl_phy_gas_boyle`. -/
def phyGasBoyle (p₁ vi pf : R) : Int × R :=
  if CReal.le pf (lit 0) || CReal.lt vi (lit 0) || CReal.lt p₁ (lit 0) then (-EINVAL, CReal.nan)
  else (0, (vi * p₁) / pf)

/-- physics/gases.c:51-63 `zsl_phy_gas_charles_lussac`. -/
def phyGasCharlesLussac (ti vi tf : R) : Int × R :=
  if CReal.le ti (lit 0) || CReal.lt vi (lit 0) || CReal.lt tf (lit 0) then (-EINVAL, CReal.nan)
  else (0, (vi * tf) / ti)

/-! ### gravitation.c -/

/-- physics/gravitation.c:12-25 `zsl_phy_grav_orb_period`. -/
def phyGravOrbPeriod (mp msat r : R) : Int × R :=
  if CReal.eq (mp + msat) (lit 0) then (-EINVAL, CReal.nan)
  else (0, CReal.sqrt ((lit 4 * zslPi * zslPi * r * r * r) / (zslUnivGrav * (mp + msat))))

/-- physics/gravitation.c:27-38 `zsl_phy_grav_esc_vel`. -/
def phyGravEscVel (mp r : R) : Int × R :=
  if CReal.eq r (lit 0) then (-EINVAL, CReal.nan)
  else (0, CReal.sqrt ((lit 2 * zslUnivGrav * mp) / r))

/-- physics/gravitation.c:40-51 `zsl_phy_grav_acc`. -/
def phyGravAcc (m r : R) : Int × R :=
  if CReal.eq r (lit 0) then (-EINVAL, CReal.nan)
  else (0, (-zslUnivGrav * m) / (r * r))

/-- physics/gravitation.c:53-64 `zsl_phy_grav_orb_vel`. -/
def phyGravOrbVel (mp r : R) : Int × R :=
  if CReal.eq r (lit 0) then (-EINVAL, CReal.nan)
  else (0, CReal.sqrt ((zslUnivGrav * mp) / r))

/-- physics/gravitation.c:66-77 `zsl_phy_grav_force`. -/
def phyGravForce (m1 m2 r : R) : Int × R :=
  if CReal.eq r (lit 0) then (-EINVAL, CReal.nan)
  else (0, (-zslUnivGrav * m1 * m2) / (r * r))

/-- physics/gravitation.c:79-91 `zsl_phy_grav_pot_ener`. -/
def phyGravPotEner (m1 m2 r : R) : Int × R :=
  if CReal.eq r (lit 0) then (-EINVAL, CReal.nan)
  else (0, (-zslUnivGrav * m1 * m2) / (r * lit 1e3))

/-! ### kinematics.c -/

/-- physics/kinematics.c:12-24 `zsl_phy_kin_dist`. -/
def phyKinDist (vi time accel : R) : Int × R :=
  if CReal.lt time (lit 0) then (-EINVAL, CReal.nan)
  else (0, vi * time + lit 0.5 * accel * time * time)

/-- physics/kinematics.c:26-42 `zsl_phy_kin_init_pos`. -/
def phyKinInitPos (vi t a xf : R) : Int × R :=
  if CReal.lt t (lit 0) then (-EINVAL, CReal.nan)
  else
    let dist := (phyKinDist vi t a).2
    (0, xf - dist)

/-- physics/kinematics.c:44-56 `zsl_phy_kin_init_pos2`. -/
def phyKinInitPos2 (vi vf a xf : R) : Int × R :=
  if CReal.eq a (lit 0) then (-EINVAL, CReal.nan)
  else (0, xf - ((vf * vf - vi * vi) / (lit 2 * a)))

/-- physics/kinematics.c:58-70 `zsl_phy_kin_time`. -/
def phyKinTime (vi vf accel : R) : Int × R :=
  let time := (vf - vi) / accel
  if CReal.lt time (lit 0) || CReal.eq accel (lit 0) then (-EINVAL, CReal.nan)
  else (0, time)

/-- physics/kinematics.c:72-84 `zsl_phy_kin_vel`. -/
def phyKinVel (vi time accel : R) : Int × R :=
  let vf := vi + time * accel
  if CReal.lt time (lit 0) then (-EINVAL, CReal.nan)
  else (0, vf)

/-- physics/kinematics.c:86-100 `zsl_phy_kin_vel2`. -/
def phyKinVel2 (vi dist accel : R) : Int × R :=
  let vf2 := vi * vi + lit 2 * accel * dist
  if CReal.lt vf2 (lit 0) then (-EINVAL, CReal.nan)
  else (0, CReal.sqrt vf2)

/-- physics/kinematics.c:102-113 `zsl_phy_kin_init_vel`. -/
def phyKinInitVel (vf a t : R) : Int × R :=
  if CReal.lt t (lit 0) then (-EINVAL, CReal.nan)
  else (0, vf - a * t)

/-- physics/kinematics.c:115-127 `zsl_phy_kin_init_vel2`. -/
def phyKinInitVel2 (dist a t : R) : Int × R :=
  if CReal.le t (lit 0) then (-EINVAL, CReal.nan)
  else (0, (dist - lit 0.5 * a * t * t) / t)

/-- physics/kinematics.c:129-143 `zsl_phy_kin_init_vel3`. -/
def phyKinInitVel3 (vf a dist : R) : Int × R :=
  let sq := vf * vf - lit 2 * a * dist
  if CReal.lt sq (lit 0) then (-EINVAL, CReal.nan)
  else (0, CReal.sqrt sq)

/-- physics/kinematics.c:145-156 `zsl_phy_kin_av_vel`. -/
def phyKinAvVel (dist time : R) : Int × R :=
  if CReal.le time (lit 0) then (-EINVAL, CReal.nan)
  else (0, dist / time)

/-- physics/kinematics.c:158-170 `zsl_phy_kin_accel`. -/
def phyKinAccel (vi vf time : R) : Int × R :=
  if CReal.le time (lit 0) then (-EINVAL, CReal.nan)
  else (0, (vf - vi) / time)

/-- physics/kinematics.c:172-183 `zsl_phy_kin_ener`. -/
def phyKinEner (v m : R) : Int × R :=
  if CReal.lt m (lit 0) then (-EINVAL, CReal.nan)
  else (0, lit 0.5 * m * v * v)

/-! ### magnetics.c -/

/-- physics/magnetics.c:12-24 `zsl_phy_magn_force`. -/
def phyMagnForce (q v b theta : R) : Int × R :=
  if CReal.lt v (lit 0) || CReal.lt b (lit 0) then (-EINVAL, CReal.nan)
  else (0, q * v * b * CReal.sin theta)

/-- physics/magnetics.c:26-38 `zsl_phy_magn_force_wire`. -/
def phyMagnForceWire (i l b theta : R) : Int × R :=
  if CReal.lt l (lit 0) || CReal.lt b (lit 0) then (-EINVAL, CReal.nan)
  else (0, i * l * b * CReal.sin theta)

/-- physics/magnetics.c:40-52 `zsl_phy_magn_torque_loop`. -/
def phyMagnTorqueLoop (i a b theta : R) : Int × R :=
  if CReal.lt a (lit 0) || CReal.lt b (lit 0) then (-EINVAL, CReal.nan)
  else (0, i * a * b * CReal.sin theta)

/-- physics/magnetics.c:54-66 `zsl_phy_magn_pot_dipole`. -/
def phyMagnPotDipole (mom b theta : R) : Int × R :=
  if CReal.lt mom (lit 0) || CReal.lt b (lit 0) then (-EINVAL, CReal.nan)
  else (0, -mom * b * CReal.cos theta)

/-- physics/magnetics.c:68-85 `zsl_phy_magn_orb_radius`. -/
def phyMagnOrbRadius (q v b m : R) : Int × R :=
  if CReal.eq q (lit 0) || CReal.eq b (lit 0) || CReal.lt m (lit 0) then (-EINVAL, CReal.nan)
  else
    let r := (m * v) / (q * b)
    if CReal.lt r (lit 0) then (-EINVAL, CReal.nan) else (0, r)

/-- physics/magnetics.c:87-98 `zsl_phy_magn_flux`. -/
def phyMagnFlux (a b theta : R) : Int × R :=
  if CReal.lt a (lit 0) || CReal.lt b (lit 0) then (-EINVAL, CReal.nan)
  else (0, a * b * CReal.cos theta)

/-- physics/magnetics.c:100-111 `zsl_phy_magn_mom`. -/
def phyMagnMom (i a : R) : Int × R :=
  if CReal.lt a (lit 0) then (-EINVAL, CReal.nan)
  else (0, i * a)

/-! ### mass.c -/

/-- physics/mass.c:13-81 `zsl_phy_mass_center`. -/
def phyMassCenter (m x y z : Vec R) (mx my mz : R) : Out (Int × R × R × R) :=
  if m.sz ≠ x.sz ∨ x.sz ≠ y.sz ∨ y.sz ≠ z.sz then ok (-EINVAL, CReal.nan, CReal.nan, CReal.nan)
  else do
    let (rc, mtx) ← vecDot m x (lit 0)
    if rc ≠ 0 then return (-EINVAL, mx, my, mz)
    let (rc, mty) ← vecDot m y (lit 0)
    if rc ≠ 0 then return (-EINVAL, mx, my, mz)
    let (rc, mtz) ← vecDot m z (lit 0)
    if rc ≠ 0 then return (-EINVAL, mx, my, mz)
    let (rc, mt) ← vecArMean m (lit 0)
    if rc ≠ 0 then return (-EINVAL, mx, my, mz)
    let nn ← vecIsNonneg m
    if nn = false then return (-EINVAL, CReal.nan, CReal.nan, CReal.nan)
    let mt := mt * CReal.ofNat m.sz
    if CReal.eq mt (lit 0) then return (-EINVAL, CReal.nan, CReal.nan, CReal.nan)
    return (0, mtx / mt, mty / mt, mtz / mt)

/-! ### momentum.c -/

/-- physics/momentum.c:12-23 `zsl_phy_mom_mom`. -/
def phyMomMom (m v : R) : Int × R :=
  if CReal.lt m (lit 0) then (-EINVAL, CReal.nan)
  else (0, m * v)

/-- physics/momentum.c:25-36 `zsl_phy_mom_imp`. -/
def phyMomImp (f time : R) : Int × R :=
  if CReal.lt time (lit 0) then (-EINVAL, CReal.nan)
  else (0, f * time)

/-- physics/momentum.c:38-49 `zsl_phy_mom_change`. -/
def phyMomChange (m vi vf : R) : Int × R :=
  if CReal.lt m (lit 0) then (-EINVAL, CReal.nan)
  else (0, m * (vf - vi))

/-- physics/momentum.c:51-67 `zsl_phy_mom_elas`. -/
def phyMomElas (m1 vi1 vf1 m2 vi2 : R) : Int × R :=
  if CReal.lt m1 (lit 0) || CReal.le m2 (lit 0) then (-EINVAL, CReal.nan)
  else (0, (m1 * (vi1 - vf1) + m2 * vi2) / m2)

/-- physics/momentum.c:69-85 `zsl_phy_mom_inelas`. -/
def phyMomInelas (m1 vi1 m2 vi2 : R) : Int × R :=
  if CReal.lt m1 (lit 0) || CReal.lt m2 (lit 0) || CReal.eq (m1 + m2) (lit 0) then (-EINVAL, CReal.nan)
  else (0, (m1 * vi1 + m2 * vi2) / (m1 + m2))

/-! ### optics.c -/

/-- physics/optics.c:12-23 `zsl_phy_opt_refrac_index`. -/
def phyOptRefracIndex (v : R) : Int × R :=
  if CReal.lt v (lit 0) || CReal.gt v zslLightSpeed then (-EINVAL, CReal.nan)
  else (0, v / zslLightSpeed)

/-- physics/optics.c:25-38 `zsl_phy_opt_snell`. -/
def phyOptSnell (n1 n2 o1 : R) : Int × R :=
  let o := (n1 * CReal.sin o1) / n2
  if CReal.lt n1 (lit 0) || CReal.le n2 (lit 0) || CReal.gt (CReal.abs o) (lit 1) then (-EINVAL, CReal.nan)
  else (0, CReal.asin ((n1 * CReal.sin o1) / n2))

/-- physics/optics.c:40-51 `zsl_phy_opt_focus`. -/
def phyOptFocus (sr si : R) : Int × R :=
  if CReal.eq (sr + si) (lit 0) then (-EINVAL, CReal.nan)
  else (0, (sr * si) / (sr + si))

/-- physics/optics.c:53-64 `zsl_phy_opt_critic_angle`. -/
def phyOptCriticAngle (n1 n2 : R) : Int × R :=
  if CReal.le n1 (lit 0) || CReal.lt n2 (lit 0) || CReal.gt n2 n1 then (-EINVAL, CReal.nan)
  else (0, CReal.asin (n2 / n1))

/-- physics/optics.c:66-77 `zsl_phy_opt_power`. -/
def phyOptPower (f : R) : Int × R :=
  if CReal.eq f (lit 0) then (-EINVAL, CReal.nan)
  else (0, lit 1 / f)

/-- physics/optics.c:79-90 `zsl_phy_opt_magn`. -/
def phyOptMagn (y1 y2 : R) : Int × R :=
  if CReal.le y1 (lit 0) || CReal.lt y2 (lit 0) then (-EINVAL, CReal.nan)
  else (0, y2 / y1)

/-- physics/optics.c:92-103 `zsl_phy_opt_dif`. -/
def phyOptDif (n : Nat) (lam o : R) : Int × R :=
  if CReal.lt lam (lit 0) || CReal.le (CReal.sin o) (lit 0) then (-EINVAL, CReal.nan)
  else (0, (CReal.ofNat n * lam) / CReal.sin o)

/-! ### photons.c -/

/-- physics/photons.c:12-23 `zsl_phy_photon_ener`. -/
def phyPhotonEner (lam : R) : Int × R :=
  if CReal.le lam (lit 0) then (-EINVAL, CReal.nan)
  else (0, (zslLightSpeed * zslPlanck) / (lam * lit 1.602176634e-19))

/-- physics/photons.c:25-36 `zsl_phy_photon_mom`. -/
def phyPhotonMom (lam : R) : Int × R :=
  if CReal.le lam (lit 0) then (-EINVAL, CReal.nan)
  else (0, zslPlanck / (lam * lit 1.602176634e-19))

/-- physics/photons.c:38-49 `zsl_phy_photon_wavelength`. -/
def phyPhotonWavelength (f : R) : Int × R :=
  if CReal.le f (lit 0) then (-EINVAL, CReal.nan)
  else (0, zslLightSpeed / f)

/-- physics/photons.c:51-62 `zsl_phy_photon_frequency`. -/
def phyPhotonFrequency (lam : R) : Int × R :=
  if CReal.le lam (lit 0) then (-EINVAL, CReal.nan)
  else (0, zslLightSpeed / lam)

/-- physics/photons.c:64-75 `zsl_phy_photon_photoelectric`. -/
def phyPhotonPhotoelectric (f w : R) : Int × R :=
  if CReal.lt f (lit 0) || CReal.lt w (lit 0) then (-EINVAL, CReal.nan)
  else (0, ((zslPlanck * f) / lit 1.602176634e-19) - w)

/-! ### projectiles.c -/

/-- physics/projectiles.c:12-20 `zsl_phy_proj_init_vel`. -/
def phyProjInitVel (vi theta : R) : Int × R × R :=
  (0, vi * CReal.cos theta, vi * CReal.sin theta)

/-- physics/projectiles.c:22-36 `zsl_phy_proj_time`. -/
def phyProjTime (viv yi yf : R) : Int × R :=
  let disc := viv * viv + lit 2 * zslGravEarth * (yi - yf)
  if CReal.lt disc (lit 0) then (-EINVAL, CReal.nan)
  else (0, (viv + CReal.sqrt disc) / zslGravEarth)

/-- physics/projectiles.c:38-56 `zsl_phy_proj_time_first`. -/
def phyProjTimeFirst (viv yi yf : R) : Int × R :=
  let disc := viv * viv + lit 2 * zslGravEarth * (yi - yf)
  if CReal.lt disc (lit 0) then (-EINVAL, CReal.nan)
  else
    let t := (viv - CReal.sqrt disc) / zslGravEarth
    if CReal.lt t (lit 0) then (-EINVAL, CReal.nan) else (0, t)

/-- physics/projectiles.c:58-69 `zsl_phy_proj_time2`. -/
def phyProjTime2 (viv vfv : R) : Int × R :=
  let t := (viv - vfv) / zslGravEarth
  if CReal.lt t (lit 0) then (-EINVAL, CReal.nan) else (0, t)

/-- physics/projectiles.c:71-83 `zsl_phy_proj_ver_motion`. -/
def phyProjVerMotion (viv t yi : R) : Int × R :=
  if CReal.lt t (lit 0) then (-EINVAL, CReal.nan)
  else (0, yi + viv * t - (zslGravEarth * t * t) / lit 2)

/-- physics/projectiles.c:85-96 `zsl_phy_proj_ver_vel`. -/
def phyProjVerVel (viv t : R) : Int × R :=
  if CReal.lt t (lit 0) then (-EINVAL, CReal.nan)
  else (0, viv - zslGravEarth * t)

/-- physics/projectiles.c:98-110 `zsl_phy_proj_hor_motion`. -/
def phyProjHorMotion (vih t xi : R) : Int × R :=
  let xf := xi + vih * t
  if CReal.lt t (lit 0) then (-EINVAL, CReal.nan) else (0, xf)

/-- physics/projectiles.c:112-126 `zsl_phy_proj_trajectory`. -/
def phyProjTrajectory (vih viv xi yi xf : R) : Int × R :=
  let t := (xf - xi) / vih
  if CReal.eq vih (lit 0) || CReal.lt t (lit 0) then (-EINVAL, CReal.nan)
  else (0, (phyProjVerMotion viv t yi).2)

/-- physics/projectiles.c:128-134 `zsl_phy_proj_vel`. -/
def phyProjVel (vfh vfv : R) : Int × R :=
  (0, CReal.sqrt (vfh * vfh + vfv * vfv))

/-- physics/projectiles.c:136-147 `zsl_phy_proj_angle`. -/
def phyProjAngle (vfh vfv : R) : Int × R :=
  if CReal.eq vfh (lit 0) then (0, zslPi / lit 2)
  else (0, CReal.atan (vfv / vfh))

/-- physics/projectiles.c:149-162 `zsl_phy_proj_range`. -/
def phyProjRange (vih viv xi yi : R) : Int × R :=
  let t := (phyProjTime viv yi (lit 0)).2
  let xf := (phyProjHorMotion vih t xi).2
  (0, xf - xi)

/-! ### rotation.c -/

/-- physics/rotation.c:12-23 `zsl_phy_rot_angle`. -/
def phyRotAngle (oi time a : R) : Int × R :=
  if CReal.lt time (lit 0) then (-EINVAL, CReal.nan)
  else (0, oi * time + lit 0.5 * a * time * time)

/-- physics/rotation.c:25-36 `zsl_phy_rot_dist`. -/
def phyRotDist (phi r : R) : Int × R :=
  if CReal.lt r (lit 0) then (-EINVAL, CReal.nan)
  else (0, phi * r)

/-- physics/rotation.c:38-44 `zsl_phy_rot_turn`. -/
def phyRotTurn (phi : R) : Int × R :=
  (0, phi / (lit 2 * zslPi))

/-- physics/rotation.c:46-57 `zsl_phy_rot_time`. -/
def phyRotTime (oi ω a : R) : Int × R :=
  let time := (ω - oi) / a
  if CReal.lt time (lit 0) || CReal.eq a (lit 0) then (-EINVAL, CReal.nan)
  else (0, time)

/-- physics/rotation.c:59-70 `zsl_phy_rot_omega`. -/
def phyRotOmega (oi time a : R) : Int × R :=
  let ω := oi + time * a
  if CReal.lt time (lit 0) then (-EINVAL, CReal.nan) else (0, ω)

/-- physics/rotation.c:72-85 `zsl_phy_rot_omega2`. -/
def phyRotOmega2 (oi phi a : R) : Int × R :=
  let of2 := oi * oi + lit 2 * a * phi
  if CReal.lt of2 (lit 0) then (-EINVAL, CReal.nan)
  else (0, CReal.sqrt of2)

/-- physics/rotation.c:87-98 `zsl_phy_rot_av_omega`. -/
def phyRotAvOmega (phi time : R) : Int × R :=
  if CReal.le time (lit 0) then (-EINVAL, CReal.nan)
  else (0, phi / time)

/-- physics/rotation.c:100-111 `zsl_phy_rot_vel`. -/
def phyRotVel (omega r : R) : Int × R :=
  if CReal.lt r (lit 0) then (-EINVAL, CReal.nan)
  else (0, omega * r)

/-- physics/rotation.c:113-125 `zsl_phy_rot_ang_accel`. -/
def phyRotAngAccel (oi ω time : R) : Int × R :=
  if CReal.le time (lit 0) then (-EINVAL, CReal.nan)
  else (0, (ω - oi) / time)

/-- physics/rotation.c:127-138 `zsl_phy_rot_accel`. -/
def phyRotAccel (a r : R) : Int × R :=
  if CReal.lt r (lit 0) then (-EINVAL, CReal.nan)
  else (0, a * r)

/-- physics/rotation.c:140-151 `zsl_phy_rot_ener`. -/
def phyRotEner (omega i : R) : Int × R :=
  if CReal.lt i (lit 0) then (-EINVAL, CReal.nan)
  else (0, lit 0.5 * i * omega * omega)

/-- physics/rotation.c:153-164 `zsl_phy_rot_period`. -/
def phyRotPeriod (omega : R) : Int × R :=
  if CReal.le omega (lit 0) then (-EINVAL, CReal.nan)
  else (0, (lit 2 * zslPi) / omega)

/-- physics/rotation.c:166-177 `zsl_phy_rot_frequency`. -/
def phyRotFrequency (omega : R) : Int × R :=
  if CReal.lt omega (lit 0) then (-EINVAL, CReal.nan)
  else (0, omega / (lit 2 * zslPi))

/-- physics/rotation.c:179-190 `zsl_phy_rot_cent_accel`. -/
def phyRotCentAccel (vel r : R) : Int × R :=
  if CReal.le r (lit 0) then (-EINVAL, CReal.nan)
  else (0, (vel * vel) / r)

/-- physics/rotation.c:192-203 `zsl_phy_rot_cent_accel2`. -/
def phyRotCentAccel2 (t r : R) : Int × R :=
  if CReal.lt r (lit 0) || CReal.le t (lit 0) then (-EINVAL, CReal.nan)
  else (0, (lit 4 * zslPi * zslPi * r) / (t * t))

/-- physics/rotation.c:205-211 `zsl_phy_rot_total_accel`. -/
def phyRotTotalAccel (accel ca : R) : Int × R :=
  (0, CReal.sqrt (accel * accel + ca * ca))

/-- physics/rotation.c:213-219 `zsl_phy_rot_power`. -/
def phyRotPower (torque omega : R) : Int × R :=
  (0, torque * omega)

/-! ### sound.c -/

/-- physics/sound.c:12-23 `zsl_phy_sound_press_amp`. -/
def phySoundPressAmp (b k a : R) : Int × R :=
  if CReal.lt b (lit 0) || CReal.lt k (lit 0) || CReal.lt a (lit 0) then (-EINVAL, CReal.nan)
  else (0, b * k * a)

/-- physics/sound.c:25-36 `zsl_phy_sound_level`. -/
def phySoundLevel (i i0 : R) : Int × R :=
  if CReal.lt i (lit 0) || CReal.lt i0 (lit 0) then (-EINVAL, CReal.nan)
  else (0, lit 10 * CReal.log10 (i / i0))

/-- physics/sound.c:38-49 `zsl_phy_sound_intensity`. -/
def phySoundIntensity (b d p : R) : Int × R :=
  if CReal.lt b (lit 0) || CReal.le d (lit 0) || CReal.lt p (lit 0) then (-EINVAL, CReal.nan)
  else (0, (p * p * CReal.sqrt (b / d)) / (lit 2 * b))

/-- physics/sound.c:51-57 `zsl_phy_sound_shock_wave_angle`. -/
def phySoundShockWaveAngle (v vs : R) : Int × R :=
  (0, CReal.asin (v / vs))

/-- physics/sound.c:59-76 `zsl_phy_sound_dop_effect`. -/
def phySoundDopEffect (v vs vl fs : R) : Int × R :=
  if CReal.lt fs (lit 0) || CReal.eq (v + vs) (lit 0) then (-EINVAL, CReal.nan)
  else
    let fl := (fs * (v + vl)) / (v + vs)
    if CReal.lt fl (lit 0) then (-EINVAL, CReal.nan) else (0, fl)

/-- physics/sound.c:78-89 `zsl_phy_sound_beat`. -/
def phySoundBeat (fa fb : R) : Int × R :=
  if CReal.lt fa (lit 0) || CReal.lt fb (lit 0) then (-EINVAL, CReal.nan)
  else (0, CReal.abs (fa - fb))

/-! ### thermo.c -/

/-- physics/thermo.c:12-23 `zsl_phy_thermo_fahren_cels`. -/
def phyThermoFahrenCels (t1 : R) (ctf : Bool) : Int × R :=
  if ctf = true then (0, ((lit 9 * t1) / lit 5) + lit 32)
  else (0, ((t1 - lit 32) * lit 5) / lit 9)

/-- physics/thermo.c:25-36 `zsl_phy_thermo_cels_kel`. -/
def phyThermoCelsKel (t1 : R) (ktc : Bool) : Int × R :=
  if ktc = true then (0, t1 - lit 273.15)
  else (0, t1 + lit 273.15)

/-- physics/thermo.c:38-49 `zsl_phy_thermo_heat_fusion`. -/
def phyThermoHeatFusion (m lh : R) : Int × R :=
  if CReal.lt m (lit 0) || CReal.lt lh (lit 0) then (-EINVAL, CReal.nan)
  else (0, m * lh)

/-- physics/thermo.c:51-62 `zsl_phy_thermo_heat`. -/
def phyThermoHeat (m sh t : R) : Int × R :=
  if CReal.lt m (lit 0) || CReal.lt sh (lit 0) then (-EINVAL, CReal.nan)
  else (0, m * sh * t)

/-- physics/thermo.c:64-75 `zsl_phy_thermo_expan`. -/
def phyThermoExpan (l0 a t : R) : Int × R :=
  if CReal.lt l0 (lit 0) || CReal.lt a (lit 0) then (-EINVAL, CReal.nan)
  else (0, l0 + l0 * a * t)

/-- physics/thermo.c:77-88 `zsl_phy_thermo_mean_free_path`. -/
def phyThermoMeanFreePath (nv d : R) : Int × R :=
  if CReal.le nv (lit 0) || CReal.le d (lit 0) then (-EINVAL, CReal.nan)
  else (0, lit 1e6 / (zslPi * CReal.sqrt (lit 2) * nv * d * d))

/-- physics/thermo.c:90-101 `zsl_phy_thermo_effic_heat_engine`. -/
def phyThermoEfficHeatEngine (qc qh : R) : Int × R :=
  if CReal.eq qh (lit 0) || CReal.gt qc qh then (-EINVAL, CReal.nan)
  else (0, lit 1 - qc / qh)

/-- physics/thermo.c:103-115 `zsl_phy_thermo_carnot_engine`. -/
def phyThermoCarnotEngine (tc qc th : R) : Int × R :=
  if CReal.le tc (lit 0) || CReal.lt th tc then (-EINVAL, CReal.nan)
  else (0, (qc * th) / tc)

/-! ### work.c -/

/-- physics/work.c:12-23 `zsl_phy_work_module`. -/
def phyWorkModule (f d : R) : Int × R :=
  if CReal.lt f (lit 0) || CReal.lt d (lit 0) then (-EINVAL, CReal.nan)
  else (0, f * d)

/-- physics/work.c:25-38 `zsl_phy_work_x`. -/
def phyWorkX (f d theta : R) : Int × R :=
  if CReal.lt f (lit 0) || CReal.lt d (lit 0) then (-EINVAL, CReal.nan)
  else (0, (phyWorkModule f d).2 * CReal.cos theta)

/-- physics/work.c:40-53 `zsl_phy_work_y`. -/
def phyWorkY (f d theta : R) : Int × R :=
  if CReal.lt f (lit 0) || CReal.lt d (lit 0) then (-EINVAL, CReal.nan)
  else (0, (phyWorkModule f d).2 * CReal.sin theta)

/-- physics/work.c:55-61 `zsl_phy_work_kin`. -/
def phyWorkKin (k1 k2 : R) : Int × R :=
  (0, k2 - k1)

end Verif
