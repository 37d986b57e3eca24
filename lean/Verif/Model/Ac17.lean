import Verif.Model.Pest
import Verif.Model.Msp
import Verif.Model.SecretSharing
import Verif.Model.Aes

/-!
# AC17 CP-ABE and KP-ABE

Model of `/repo/src/schemes/ac17/mod.rs`. `ASSUMPTION_SIZE = 2` (line 138); loops over it are unrolled or run over
`[0, 1]` and `[0, 1, 2]`.
-/

namespace Rabe
namespace Ac17

variable {F G1 G2 Gt : Type} [Field F] [DecidableEq F] [AddCommGroup G1] [Module F G1]
  [AddCommGroup G2] [Module F G2] [AddCommGroup Gt] [Module F Gt]

/-- `Ac17PublicKey`, `/repo/src/schemes/ac17/mod.rs:62-66`. -/
structure PublicKey (G1 G2 Gt : Type) where
  g : G1
  hA : List G2
  eGhKa : List Gt

/-- `Ac17MasterKey`, `/repo/src/schemes/ac17/mod.rs:72-78`. -/
structure MasterKey (F G1 G2 : Type) where
  g : G1
  h : G2
  gK : List G1
  a : List F
  b : List F

/-- `Ac17Ciphertext`, `/repo/src/schemes/ac17/mod.rs:84-89`. -/
structure Ciphertext (G1 G2 Gt : Type) where
  c0 : List G2
  c : List (Str × List G1)
  cP : Gt
  ct : Bytes

/-- `Ac17CpCiphertext`, `/repo/src/schemes/ac17/mod.rs:95-98`. -/
structure CpCiphertext (G1 G2 Gt : Type) where
  policy : Str × PolicyLanguage
  ct : Ciphertext G1 G2 Gt

/-- `Ac17KpCiphertext`, `/repo/src/schemes/ac17/mod.rs:104-107`. -/
structure KpCiphertext (G1 G2 Gt : Type) where
  attr : List Str
  ct : Ciphertext G1 G2 Gt

/-- `Ac17SecretKey`, `/repo/src/schemes/ac17/mod.rs:113-117`. -/
structure SecretKey (G1 G2 : Type) where
  k0 : List G2
  k : List (Str × List G1)
  kP : List G1

/-- `Ac17KpSecretKey`, `/repo/src/schemes/ac17/mod.rs:123-126`. -/
structure KpSecretKey (G1 G2 : Type) where
  policy : Str × PolicyLanguage
  sk : SecretKey G1 G2

/-- `Ac17CpSecretKey`, `/repo/src/schemes/ac17/mod.rs:132-135`. -/
structure CpSecretKey (G1 G2 : Type) where
  attr : List Str
  sk : SecretKey G1 G2

/-- The hashed string `s ++ l ++ t`, e.g. `/repo/src/schemes/ac17/mod.rs:231-234`. -/
def hashIn (s : Str) (l t : ℕ) : Str := s ++ natStr l ++ natStr t

/-- The name `"0" ++ j` of a matrix column, `/repo/src/schemes/ac17/mod.rs:308-310,502-504`. -/
def colName (j : ℕ) : Str := '0' :: natStr j

/-- `setup`, `/repo/src/schemes/ac17/mod.rs:141-183`. -/
def setup (env : Env F G1 G2 Gt) : RM F G1 G2 Gt (PublicKey G1 G2 Gt × MasterKey F G1 G2) := do
  let g ← RM.genG1
  let h ← RM.genG2
  let eGh := env.pair g h
  let a0 ← RM.genFr
  let b0 ← RM.genFr
  let a1 ← RM.genFr
  let b1 ← RM.genFr
  let k0 ← RM.genFr
  let k1 ← RM.genFr
  let k2 ← RM.genFr
  pure ({ g, hA := [a0 • h, a1 • h, h], eGhKa := [(k0 * a0 + k2) • eGh, (k1 * a1 + k2) • eGh] },
    { g, h, gK := [k0 • g, k1 • g, k2 • g], a := [a0, a1], b := [b0, b1] })

/-- The vector `br`, `/repo/src/schemes/ac17/mod.rs:203-215` and `453-465`: `b₀r₀, b₁r₁, r₀ + r₁`. -/
def brVec (msk : MasterKey F G1 G2) (r0 r1 : F) : Res (List F) := do
  let b0 ← Res.index msk.b 0
  let b1 ← Res.index msk.b 1
  .ok [b0 * r0, b1 * r1, 0 + r0 + r1]

/-- The inner loop over `_l`, `/repo/src/schemes/ac17/mod.rs:230-236`, `250-256`, `486-492`, `505-511`: adds
`hash(s ++ l ++ t) * (br[l] * 1/a_t)` to `acc`. `br` has three entries by construction. -/
def hashSum (env : Env F G1 G2 Gt) (g : G1) (s : Str) (br : List F) (aInv : F) (t : ℕ) (acc : G1) : G1 :=
  [0, 1, 2].foldl (fun acc l => acc + (br.getD l 0 * aInv) • env.sha3Hash g (hashIn s l t)) acc

/-- `a[t].inverse().unwrap()`, `/repo/src/schemes/ac17/mod.rs:229,249,485`. -/
def aInverse (msk : MasterKey F G1 G2) (t : ℕ) : Res F := do
  let a ← Res.index msk.a t
  inv a

/-- Body of the loop over the attributes in `cp_keygen`, `/repo/src/schemes/ac17/mod.rs:224-242`. -/
def cpKeygenAttr (env : Env F G1 G2 Gt) (msk : MasterKey F G1 G2) (br : List F) (attr : Str) :
    RM F G1 G2 Gt (Str × List G1) := do
  let sigma ← RM.genFr
  let ks ← RM.lift (Res.mapR (fun t => do
    let ai ← aInverse msk t
    .ok (hashSum env msk.g attr br ai t 0 + (sigma * ai) • msk.g)) [0, 1])
  pure (attr, ks ++ [(-sigma) • msk.g])

/-- `cp_keygen`, `/repo/src/schemes/ac17/mod.rs:191-264`. -/
def cpKeygen (env : Env F G1 G2 Gt) (msk : MasterKey F G1 G2) (attributes : List Str) :
    RM F G1 G2 Gt (CpSecretKey G1 G2) :=
  if attributes.isEmpty then RM.lift .err
  else do
    let r0 ← RM.genFr
    let r1 ← RM.genFr
    let br ← RM.lift (brVec msk r0 r1)
    let k0 := br.map fun x => x • msk.h
    let k ← RM.mapL (cpKeygenAttr env msk br) attributes
    let sigma ← RM.genFr
    let kp ← RM.lift (Res.mapR (fun t => do
      let gk ← Res.index msk.gK t
      let ai ← aInverse msk t
      .ok (hashSum env msk.g (chars% "01") br ai t gk + (sigma * ai) • msk.g)) [0, 1])
    let gk2 ← RM.lift (Res.index msk.gK 2)
    pure { attr := attributes, sk := { k0, k, kP := kp ++ [gk2 + (-sigma) • msk.g] } }

/-- `if e == 1 { acc + x } else if e == -1 { acc - x }`, `/repo/src/schemes/ac17/mod.rs:342-346`, `494-498`, `513-517`. -/
def addEntry (e : ℤ) (acc x : G1) : G1 := if e = 1 then acc + x else if e = -1 then acc - x else acc

/-- The loop over the columns, `/repo/src/schemes/ac17/mod.rs:335-347`; the hash table of lines 304-328 is
inlined. `msp.m[i][j]` is in range because all rows have the same length (property C17). -/
def rowHash (env : Env F G1 G2 Gt) (g : G1) (name : Str) (row : List ℤ) (cols l t : ℕ) : G1 :=
  (List.range cols).foldl (fun acc j => addEntry (row.getD j 0) acc (env.sha3Hash g (hashIn (colName (j + 1)) l t)))
    (env.sha3Hash g (hashIn name l t))

/-- Body of the loop over the rows in `cp_encrypt`, `/repo/src/schemes/ac17/mod.rs:330-356`. -/
def cpEncRow (env : Env F G1 G2 Gt) (g : G1) (cols : ℕ) (s0 s1 : F) (row : Str × List ℤ) : Str × List G1 :=
  (row.1, [0, 1, 2].map fun l =>
    0 + s0 • rowHash env g row.1 row.2 cols l 0 + s1 • rowHash env g row.1 row.2 cols l 1)

/-- `c_0`, `/repo/src/schemes/ac17/mod.rs:289-302` and `564-577`. -/
def c0Vec (pk : PublicKey G1 G2 Gt) (s0 s1 : F) : Res (List G2) := do
  let h0 ← Res.index pk.hA 0
  let h1 ← Res.index pk.hA 1
  let h2 ← Res.index pk.hA 2
  .ok [s0 • h0, s1 • h1, (0 + s0 + s1) • h2]

/-- The first factor of `c_p`, `/repo/src/schemes/ac17/mod.rs:357-360` and `600-603`. -/
def cPrime (pk : PublicKey G1 G2 Gt) (s0 s1 : F) : Res Gt := do
  let e0 ← Res.index pk.eGhKa 0
  let e1 ← Res.index pk.eGhKa 1
  .ok (0 + s0 • e0 + s1 • e1)

/-- `cp_encrypt`, `/repo/src/schemes/ac17/mod.rs:274-376`. -/
def cpEncrypt (env : Env F G1 G2 Gt) (pk : PublicKey G1 G2 Gt) (policy : Str) (plaintext : Bytes)
    (language : PolicyLanguage) : RM F G1 G2 Gt (CpCiphertext G1 G2 Gt) := do
  let pol ← RM.lift (parse policy language)
  let msp ← RM.lift (Res.unwrap (calculateMsp pol))
  let row0 ← RM.lift (Res.index msp.m 0)
  let s0 ← RM.genFr
  let s1 ← RM.genFr
  let c0 ← RM.lift (c0Vec pk s0 s1)
  let c := (msp.pi.zip msp.m).map (cpEncRow env pk.g row0.length s0 s1)
  let cp ← RM.lift (cPrime pk s0 s1)
  let msg ← RM.genGt
  let ct ← encryptSymmetric env msg plaintext
  pure { policy := (policy, language), ct := { c0, c, cP := cp + msg, ct } }

/-- The loops over the components with the current attribute name, `/repo/src/schemes/ac17/mod.rs:404-408` and
`409-413`: adds entry `i` of every component of that name. -/
def matchSum (entries : List (Str × List G1)) (i : ℕ) (acc : G1) (name : Str) : Res G1 :=
  Res.foldR (fun acc (e : Str × List G1) => if e.1 == name then do
    let x ← Res.index e.2 i
    .ok (acc + x) else .ok acc) acc entries

/-- The loop over the pruned leaves, `/repo/src/schemes/ac17/mod.rs:401-414` and `642-655`; the sums `_prod_g` and
`_prod_h`, computed in one loop in the source, are computed one after the other. -/
def listSum (entries : List (Str × List G1)) (i : ℕ) (list : List (Str × Str)) : Res G1 :=
  Res.foldR (fun acc (cur : Str × Str) => matchSum entries i acc cur.1) 0 list

/-- Body of the loop over `_i`, `/repo/src/schemes/ac17/mod.rs:400-417`: updates `(prod1, prod2)`. -/
def cpDecStep (env : Env F G1 G2 Gt) (sk : SecretKey G1 G2) (ct : Ciphertext G1 G2 Gt) (list : List (Str × Str))
    (acc : Gt × Gt) (i : ℕ) : Res (Gt × Gt) := do
  let pg ← listSum ct.c i list
  let ph ← listSum sk.k i list
  let kp ← Res.index sk.kP i
  let c0 ← Res.index ct.c0 i
  let k0 ← Res.index sk.k0 i
  .ok (acc.1 + env.pair (kp + ph) c0, acc.2 + env.pair pg k0)

/-- `cp_decrypt` up to the recovered session element, `/repo/src/schemes/ac17/mod.rs:389-418`. -/
def cpRecover (env : Env F G1 G2 Gt) (sk : CpSecretKey G1 G2) (ct : CpCiphertext G1 G2 Gt) : Res Gt := do
  let pol ← parse ct.policy.1 ct.policy.2
  if traversePolicy sk.attr pol .leaf = false then .err
  else do
    let pruned ← calcPruned sk.attr pol none
    if pruned.1 then do
      let prods ← Res.foldR (cpDecStep env sk.sk ct.ct pruned.2) (0, 0) [0, 1, 2]
      .ok (ct.ct.cP + (prods.2 + -prods.1))
    else .err

/-- `cp_decrypt`, `/repo/src/schemes/ac17/mod.rs:385-430`. -/
def cpDecrypt (env : Env F G1 G2 Gt) (sk : CpSecretKey G1 G2) (ct : CpCiphertext G1 G2 Gt) : Res Bytes := do
  let msg ← cpRecover env sk ct
  decryptSymmetric env msg ct.ct.ct

/-- Body of the loop over the columns in `kp_keygen`, `/repo/src/schemes/ac17/mod.rs:499-518`. The state is
`(_prod, _temp)`; `_temp` is not reset between columns. -/
def kpColStep (env : Env F G1 G2 Gt) (g : G1) (br : List F) (aInv : F) (sigmaP : List F) (row : List ℤ) (t : ℕ)
    (st : G1 × G1) (j : ℕ) : G1 × G1 :=
  let temp := hashSum env g (colName j) br aInv t st.2 + (-(sigmaP.getD (j - 1) 0)) • g
  (addEntry (row.getD j 0) st.1 temp, temp)

/-- `if e == 1 { acc + msk.g_k[t] } else if e == -1 { acc - msk.g_k[t] }`, `/repo/src/schemes/ac17/mod.rs:494-498`,
`523-527`: the entry of `g_k` is read only if it is needed. -/
def addGk (e : ℤ) (acc : G1) (gK : List G1) (t : ℕ) : Res G1 :=
  if e = 1 then do
    let x ← Res.index gK t
    .ok (acc + x)
  else if e = -1 then do
    let x ← Res.index gK t
    .ok (acc - x)
  else .ok acc

/-- Body of the loop over `_t` in `kp_keygen`, `/repo/src/schemes/ac17/mod.rs:483-520`. -/
def kpKeyEntry (env : Env F G1 G2 Gt) (msk : MasterKey F G1 G2) (br sigmaP : List F) (cols : ℕ) (sigma : F)
    (row : Str × List ℤ) (t : ℕ) : Res G1 := do
  let ai ← aInverse msk t
  let prod := hashSum env msk.g row.1 br ai t 0 + (sigma * ai) • msk.g
  let prod ← addGk (row.2.getD 0 0) prod msk.gK t
  .ok ((List.range' 1 (cols - 1)).foldl (kpColStep env msk.g br ai sigmaP row.2 t) (prod, 0)).1

/-- `_sk_i3`, `/repo/src/schemes/ac17/mod.rs:521-536`. -/
def kpKeyLast (msk : MasterKey F G1 G2) (sigmaP : List F) (cols : ℕ) (sigma : F) (row : List ℤ) : Res G1 := do
  let start ← addGk (row.getD 0 0) ((-sigma) • msk.g) msk.gK 2
  .ok ((List.range' 1 (cols - 1)).foldl
    (fun acc j => addEntry (row.getD j 0) acc ((-(sigmaP.getD (j - 1) 0)) • msk.g)) start)

/-- Body of the loop over the rows in `kp_keygen`, `/repo/src/schemes/ac17/mod.rs:479-538`. -/
def kpKeygenRow (env : Env F G1 G2 Gt) (msk : MasterKey F G1 G2) (br sigmaP : List F) (cols : ℕ)
    (row : Str × List ℤ) : RM F G1 G2 Gt (Str × List G1) := do
  let sigma ← RM.genFr
  let ks ← RM.lift (Res.mapR (kpKeyEntry env msk br sigmaP cols sigma row) [0, 1])
  let k2 ← RM.lift (kpKeyLast msk sigmaP cols sigma row.2)
  pure (row.1, ks ++ [k2])

/-- `kp_keygen`, `/repo/src/schemes/ac17/mod.rs:439-547`. -/
def kpKeygen (env : Env F G1 G2 Gt) (msk : MasterKey F G1 G2) (policy : Str) (language : PolicyLanguage) :
    RM F G1 G2 Gt (KpSecretKey G1 G2) := do
  let pol ← RM.lift (parse policy language)
  let msp ← RM.lift (Res.unwrap (calculateMsp pol))
  let row0 ← RM.lift (Res.index msp.m 0)
  let r0 ← RM.genFr
  let r1 ← RM.genFr
  let br ← RM.lift (brVec msk r0 r1)
  let k0 := br.map fun x => x • msk.h
  let sigmaP ← RM.mapL (fun _ => RM.genFr) (List.range (row0.length - 1))
  let k ← RM.mapL (kpKeygenRow env msk br sigmaP row0.length) (msp.pi.zip msp.m)
  pure { policy := (policy, language), sk := { k0, k, kP := [] } }

/-- Body of the loop over the attributes in `kp_encrypt`, `/repo/src/schemes/ac17/mod.rs:580-599`. -/
def kpEncAttr (env : Env F G1 G2 Gt) (g : G1) (s0 s1 : F) (attr : Str) : Str × List G1 :=
  (attr, [0, 1, 2].map fun l =>
    0 + s0 • env.sha3Hash g (hashIn attr l 0) + s1 • env.sha3Hash g (hashIn attr l 1))

/-- `kp_encrypt`, `/repo/src/schemes/ac17/mod.rs:556-616`. -/
def kpEncrypt (env : Env F G1 G2 Gt) (pk : PublicKey G1 G2 Gt) (attributes : List Str) (data : Bytes) :
    RM F G1 G2 Gt (KpCiphertext G1 G2 Gt) := do
  let s0 ← RM.genFr
  let s1 ← RM.genFr
  let c0 ← RM.lift (c0Vec pk s0 s1)
  let c := attributes.map (kpEncAttr env pk.g s0 s1)
  let cp ← RM.lift (cPrime pk s0 s1)
  let msg ← RM.genGt
  let ct ← encryptSymmetric env msg data
  pure { attr := attributes, ct := { c0, c, cP := cp + msg, ct } }

/-- Body of the loop over `_i`, `/repo/src/schemes/ac17/mod.rs:641-662`: updates `(prod1, prod2)`. -/
def kpDecStep (env : Env F G1 G2 Gt) (sk : SecretKey G1 G2) (ct : Ciphertext G1 G2 Gt) (list : List (Str × Str))
    (acc : Gt × Gt) (i : ℕ) : Res (Gt × Gt) := do
  let pg ← listSum ct.c i list
  let ph ← listSum sk.k i list
  let c0 ← Res.index ct.c0 i
  let k0 ← Res.index sk.k0 i
  .ok (acc.1 + env.pair ph c0, acc.2 + env.pair pg k0)

/-- `kp_decrypt` up to the recovered session element, `/repo/src/schemes/ac17/mod.rs:629-663`. -/
def kpRecover (env : Env F G1 G2 Gt) (sk : KpSecretKey G1 G2) (ct : KpCiphertext G1 G2 Gt) : Res Gt := do
  let pol ← parse sk.policy.1 sk.policy.2
  if traversePolicy ct.attr pol .leaf = false then .err
  else do
    let pruned ← calcPruned ct.attr pol none
    if pruned.1 then do
      let prods ← Res.foldR (kpDecStep env sk.sk ct.ct pruned.2) (0, 0) [0, 1, 2]
      .ok (ct.ct.cP + (prods.2 + -prods.1))
    else .err

/-- `kp_decrypt`, `/repo/src/schemes/ac17/mod.rs:625-677`. -/
def kpDecrypt (env : Env F G1 G2 Gt) (sk : KpSecretKey G1 G2) (ct : KpCiphertext G1 G2 Gt) : Res Bytes := do
  let msg ← kpRecover env sk ct
  decryptSymmetric env msg ct.ct.ct

end Ac17
end Rabe
