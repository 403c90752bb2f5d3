import Verif.Model.Kalman

/-!
# Several instances of a sensor fusion driver

A `struct zsl_fus_drv` (include/zsl/orientation/fusion/fusion.h) is a pair of functions and a pointer to a configuration. An application may
have any number of them, each with its own configuration and its own attitude quaternion. The sample frequency, however, is a static variable
of the file of the algorithm, and so is the flag that tells AQUA and the Kalman filter whether they have been fed before: these are shared by
all instances of the same algorithm. Here a call is an `init`, a feed, or the caller writing its own configuration and quaternion; a history
is any interleaving of the calls of the instances. Calls are not preempted (the library has no locks and is not thread safe).
-/

namespace Verif

open Out

variable {R : Type} [CReal R]

/-- fusion.h:99-121 `struct zsl_fus_drv`: the two handlers. `T` is what the file keeps in static variables, `S` the memory of one instance
(configuration and attitude), `A` the arguments of a feed, `O` what the caller sees of it (the code, and the sensor vectors, which are
changed in place). -/
structure FusDrv (T S A O : Type) where
  init : Nat → T → Int × T
  feed : T → S → A → Out (T × S × O)

/-- A call by the owner of an instance; `set` is the owner writing the configuration and the quaternion, which are its own memory. The calls are those of fusion.h:99-121 (`struct zsl_fus_drv`). -/
inductive FusCall (S A : Type) where
  | init (freq : Nat)
  | feed (x : A)
  | set (s : S)

/-- What the owner of the instance sees. The results of the callbacks of fusion.h:59-97. -/
inductive FusRes (O : Type) where
  | init (rc : Int)
  | feed (o : O)
  | set

variable {T S A O : Type}

/-- One call for an instance with memory `s`. Through the callbacks of fusion.h:99-121. -/
def FusDrv.call (D : FusDrv T S A O) (t : T) (s : S) : FusCall S A → Out (T × S × FusRes O)
  | .init freq => ok ((D.init freq t).2, s, .init (D.init freq t).1)
  | .feed x => do
    let (t, s, o) ← D.feed t s x
    return (t, s, .feed o)
  | .set s => ok (t, s, .set)

/-- The calls of many instances, in the order in which they happen, each labelled with its instance. `s i` is the memory of instance `i`. Through the callbacks of fusion.h:99-121. -/
def FusDrv.run (D : FusDrv T S A O) : T → (Nat → S) → List (Nat × FusCall S A) → Out (T × (Nat → S) × List (Nat × FusRes O))
  | t, s, [] => ok (t, s, [])
  | t, s, (i, c) :: h => do
    let (t, si, o) ← D.call t (s i) c
    let (t, s, os) ← D.run t (Function.update s i si) h
    return (t, s, (i, o) :: os)

/-- The calls of one instance, with no other instance in the system. Through the callbacks of fusion.h:99-121. -/
def FusDrv.alone (D : FusDrv T S A O) : T → S → List (FusCall S A) → Out (T × S × List (FusRes O))
  | t, s, [] => ok (t, s, [])
  | t, s, c :: h => do
    let (t, s, o) ← D.call t s c
    let (t, s, os) ← D.alone t s h
    return (t, s, o :: os)

/-- The arguments of a feed; `junk` is the content of its uninitialised locals. fusion.h:61-80 (`zsl_fus_feed_cb_t`). -/
structure FeedArgs (R : Type) where
  s : Sens R
  incl : Option R
  junk : Nat → R

/-- mahony.c:13 (`zsl_fus_mahn_freq`), 268-301. -/
def mahnDrv : FusDrv Nat (MahnCfg R × Quat R) (FeedArgs R) (Int × Sens R) where
  init := fusInit
  feed f := fun (c, q) x => do
    let (rc, s, c, q) ← fusMahnFeed x.junk f x.incl x.s c q
    return (f, (c, q), rc, s)

/-- madgwick.c:13 (`zsl_fus_madg_freq`), 283-316; the configuration is beta. -/
def madgDrv : FusDrv Nat (R × Quat R) (FeedArgs R) (Int × Sens R) where
  init := fusInit
  feed f := fun (b, q) x => do
    let (rc, s, q) ← fusMadgFeed x.junk f x.incl b x.s q
    return (f, (b, q), rc, s)

/-- complementary.c:13 (`zsl_fus_comp_freq`), 79-111; the configuration is alpha, the sensors are not changed. -/
def compDrv : FusDrv Nat (R × Quat R) (FeedArgs R) (Int × Sens R) where
  init := fusInit
  feed f := fun (c, q) x => do
    let (rc, q) ← fusCompFeed x.junk f c x.s q
    return (f, (c, q), rc, x.s)

/-- saam.c:13 (`zsl_fus_saam_freq`), 63-86; there is no configuration. -/
def saamDrv : FusDrv Nat (Quat R) (FeedArgs R) (Int × Sens R) where
  init := fusInit
  feed f := fun q x => do
    let (rc, s, q) ← fusSaamFeed x.junk x.s q
    return (f, q, rc, s)

/-- aqua.c:13-14 (`zsl_fus_aqua_freq`, `zsl_fus_aqua_initialised`), 175-215. `init` does not touch the flag. -/
def aquaDrv : FusDrv (Nat × Bool) (AquaCfg R × Quat R) (FeedArgs R) (Int × Sens R) where
  init freq := fun (f, b) => ((fusInit freq f).1, (fusInit freq f).2, b)
  feed := fun (f, b) (c, q) x => do
    let (rc, s, c, q, b) ← fusAquaFeed x.junk f b c x.s q
    return ((f, b), (c, q), rc, s)

/-- The arguments of a feed of the Kalman filter, for which the gyroscope may be NULL as well. fusion.h:61-80 (`zsl_fus_feed_cb_t`). -/
structure KalmArgs (R : Type) where
  s : Sens3 R
  incl : Option R
  junk : Nat → R

/-- kalman.c:13-14 (`zsl_fus_kalm_freq`, `zsl_fus_kalm_initialised`), 285-324. `init` does not touch the flag. -/
def kalmDrv : FusDrv (Nat × Bool) (KalmCfg R × Quat R) (KalmArgs R) (Int × Sens3 R) where
  init freq := fun (f, b) => ((fusInit freq f).1, (fusInit freq f).2, b)
  feed := fun (f, b) (c, q) x => do
    let (rc, s, c, q, b) ← fusKalmFeed x.junk f x.incl x.s c q b
    return ((f, b), (c, q), rc, s)

end Verif
