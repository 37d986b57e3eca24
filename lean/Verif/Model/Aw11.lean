import Verif.Model.Pest
import Verif.Model.Msp
import Verif.Model.SecretSharing
import Verif.Model.Aes

/-!
# AW11 multi-authority CP-ABE

Model of `/repo/src/schemes/aw11/mod.rs`.
-/

namespace Rabe

/-- `str::to_uppercase` (used in `/repo/src/schemes/aw11/mod.rs:137,223,268,273`): every character is replaced by one or
more characters, independently of its context. Only these facts about the Unicode tables are used: digits and `_` stay
as they are, `_` is not the upper case of another character, and converting twice is converting once. -/
structure CaseMap where
  up : Char → Str
  digit : ∀ c : Char, c.isDigit = true → up c = [c]
  underscore : up '_' = ['_']
  only_underscore : ∀ c, '_' ∈ up c → c = '_'
  idem : ∀ c, (up c).flatMap up = up c

/-- `s.to_uppercase()`, `/repo/src/schemes/aw11/mod.rs:137`. -/
def CaseMap.upper (cm : CaseMap) (s : Str) : Str := s.flatMap cm.up

namespace Aw11

variable {F G1 G2 Gt : Type} [Field F] [DecidableEq F] [AddCommGroup G1] [Module F G1]
  [AddCommGroup G2] [Module F G2] [AddCommGroup Gt] [Module F Gt]

/-- `Aw11GlobalKey`, `/repo/src/schemes/aw11/mod.rs:50-53`. -/
structure GlobalKey (G1 G2 : Type) where
  g1 : G1
  g2 : G2

/-- Entry of `Aw11PublicKey::attr`, `/repo/src/schemes/aw11/mod.rs:60`. -/
structure PubAttr (G2 Gt : Type) where
  name : Str
  e : Gt
  y : G2

/-- `Aw11PublicKey`, `/repo/src/schemes/aw11/mod.rs:59-61`. -/
structure PublicKey (G2 Gt : Type) where
  attr : List (PubAttr G2 Gt)

/-- Entry of `Aw11MasterKey::attr`, `/repo/src/schemes/aw11/mod.rs:68`. -/
structure MskAttr (F : Type) where
  name : Str
  alpha : F
  y : F

/-- `Aw11MasterKey`, `/repo/src/schemes/aw11/mod.rs:67-69`. -/
structure MasterKey (F : Type) where
  attr : List (MskAttr F)

/-- Entry of `Aw11Ciphertext::c`, `/repo/src/schemes/aw11/mod.rs:78`. -/
structure CtAttr (G2 Gt : Type) where
  name : Str
  c1 : Gt
  c2 : G2
  c3 : G2

/-- `Aw11Ciphertext`, `/repo/src/schemes/aw11/mod.rs:75-80`. -/
structure Ciphertext (G2 Gt : Type) where
  policy : Str × PolicyLanguage
  c0 : Gt
  c : List (CtAttr G2 Gt)
  ct : Bytes

/-- `Aw11SecretKey`, `/repo/src/schemes/aw11/mod.rs:86-89`. -/
structure SecretKey (G1 : Type) where
  gid : Str
  attr : List (Str × G1)

/-- `setup`, `/repo/src/schemes/aw11/mod.rs:100-108`. -/
def setup : RM F G1 G2 Gt (GlobalKey G1 G2) := do
  let g1 ← RM.genG1
  let g2 ← RM.genG2
  pure { g1, g2 }

/-- Body of the loop in `authgen`, `/repo/src/schemes/aw11/mod.rs:136-148`. -/
def authgenAttr (cm : CaseMap) (env : Env F G1 G2 Gt) (gk : GlobalKey G1 G2) (attr : Str) :
    RM F G1 G2 Gt (PubAttr G2 Gt × MskAttr F) := do
  let name := cm.upper attr
  let alpha ← RM.genFr
  let y ← RM.genFr
  pure ({ name, e := alpha • env.pair gk.g1 gk.g2, y := y • gk.g2 }, { name, alpha, y })

/-- `authgen`, `/repo/src/schemes/aw11/mod.rs:121-151`. -/
def authgen (cm : CaseMap) (env : Env F G1 G2 Gt) (gk : GlobalKey G1 G2) (attributes : List Str) :
    RM F G1 G2 Gt (Option (PublicKey G2 Gt × MasterKey F)) :=
  if attributes.isEmpty then pure none
  else do
    let l ← RM.mapL (authgenAttr cm env gk) attributes
    pure (some ({ attr := l.map (·.1) }, { attr := l.map (·.2) }))

/-- `add_to_attribute`, `/repo/src/schemes/aw11/mod.rs:200-231`: the key is updated in place, the model returns the new
key. The name is looked up as given, without conversion to upper case. -/
def addToAttribute (cm : CaseMap) (env : Env F G1 G2 Gt) (gk : GlobalKey G1 G2) (msk : MasterKey F)
    (attr : Str) (sk : SecretKey G1) : Res (SecretKey G1) :=
  if attr.isEmpty then .err
  else if sk.gid.isEmpty then .err
  else do
    let hash := env.sha3Hash gk.g1 sk.gid
    let a ← Res.unwrapOption (msk.attr.find? fun a => a.name == attr)
    .ok { sk with attr := sk.attr ++ [(cm.upper a.name, a.alpha • gk.g1 + a.y • hash)] }

/-- `keygen`, `/repo/src/schemes/aw11/mod.rs:165-190`. -/
def keygen (cm : CaseMap) (env : Env F G1 G2 Gt) (gk : GlobalKey G1 G2) (msk : MasterKey F) (name : Str)
    (attributes : List Str) : Res (SecretKey G1) :=
  if attributes.isEmpty then .err
  else if name.isEmpty then .err
  else Res.foldR (fun sk a => addToAttribute cm env gk msk a sk) { gid := name, attr := [] } attributes

/-- `find_pk_attr`, `/repo/src/schemes/aw11/mod.rs:374-391`: the first public key that has the name. -/
def findPkAttr (attr : Str) : List (PublicKey G2 Gt) → Option (PubAttr G2 Gt)
  | [] => none
  | pk :: pks => match pk.attr.find? fun a => a.name == attr with
      | some a => some a
      | none => findPkAttr attr pks

/-- Body of the loop over the shares in `encrypt`, `/repo/src/schemes/aw11/mod.rs:266-283`: a leaf without public key is
skipped (after its random number is drawn). -/
def encShare (cm : CaseMap) (env : Env F G1 G2 Gt) (gk : GlobalKey G1 G2) (pks : List (PublicKey G2 Gt))
    (wShares : List (Str × F)) (x : (Str × F) × ℕ) : RM F G1 G2 Gt (Option (CtAttr G2 Gt)) := do
  let r ← RM.genFr
  match findPkAttr (removeIndex (cm.upper x.1.1)) pks with
  | none => pure none
  | some a =>
    let w ← RM.lift (Res.index wShares x.2)
    pure (some { name := cm.upper x.1.1, c1 := x.1.2 • env.pair gk.g1 gk.g2 + r • a.e, c2 := r • gk.g2,
                 c3 := r • a.y + w.2 • gk.g2 })

/-- `encrypt`, `/repo/src/schemes/aw11/mod.rs:241-295`. The span program is computed (and may abort) but not used. -/
def encrypt (cm : CaseMap) (env : Env F G1 G2 Gt) (gk : GlobalKey G1 G2) (pks : List (PublicKey G2 Gt))
    (policy : Str) (language : PolicyLanguage) (data : Bytes) : RM F G1 G2 Gt (Ciphertext G2 Gt) := do
  let pol ← RM.lift (parse policy language)
  let msp ← RM.lift (Res.unwrap (calculateMsp pol))
  let _ ← RM.lift (Res.index msp.m 0)
  let s ← RM.genFr
  let sShares? ← RM.liftFr (genSharesPolicy pol s none)
  let sShares ← RM.lift (Res.unwrapOption sShares?)
  let wShares? ← RM.liftFr (genSharesPolicy pol 0 none)
  let wShares ← RM.lift (Res.unwrapOption wShares?)
  let msg ← RM.genGt
  let c ← RM.mapL (encShare cm env gk pks wShares) sShares.zipIdx
  let ct ← encryptSymmetric env msg data
  pure { policy := (policy, language), c0 := msg + s • env.pair gk.g1 gk.g2, c := c.filterMap id, ct }

/-- Body of the loop over the pruned leaves in `decrypt`, `/repo/src/schemes/aw11/mod.rs:327-349`. -/
def decryptStep (env : Env F G1 G2 Gt) (hash : G1) (sk : SecretKey G1) (ct : Ciphertext G2 Gt)
    (coeffs : List (Str × F)) (acc : Gt) (cur : Str × Str) : Res Gt := do
  let skAttr ← Res.unwrapOption (sk.attr.find? fun a => a.1 == cur.1)
  let ctAttr ← Res.unwrapOption (ct.c.find? fun a => a.name == cur.2)
  let num := ctAttr.c1 + env.pair hash ctAttr.c3
  let dem := env.pair skAttr.2 ctAttr.c2
  let coeff ← Res.unwrapOption (coeffs.find? fun c => c.1 == cur.2)
  .ok (acc + coeff.2 • (num + -dem))

/-- `decrypt`, `/repo/src/schemes/aw11/mod.rs:298-366`. -/
def decrypt (env : Env F G1 G2 Gt) (gk : GlobalKey G1 G2) (sk : SecretKey G1) (ct : Ciphertext G2 Gt) :
    Res Bytes := do
  let strAttr := sk.attr.map (·.1)
  let pol ← parse ct.policy.1 ct.policy.2
  if traversePolicy strAttr pol .leaf = false then .err
  else do
    let pruned ← calcPruned strAttr pol none
    let coeff? ← calcCoefficients pol (some 1) [] none
    let coeffs ← Res.unwrapOption coeff?
    if pruned.1 then do
      let hash := env.sha3Hash gk.g1 sk.gid
      let eggS ← Res.foldR (decryptStep env hash sk ct coeffs) 0 pruned.2
      decryptSymmetric env (ct.c0 + -eggS) ct.ct
    else .err

end Aw11
end Rabe
