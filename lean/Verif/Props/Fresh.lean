import Verif.Proof.Fresh
import Verif.Proof.Msp
import Verif.Model.Bsw
import Verif.Model.Ghw11
import Verif.Model.Aw11
import Verif.Model.Lsw
import Verif.Model.Yct14
import Verif.Model.Ac17
import Verif.Model.Bdabe
import Verif.Model.Mke08
import Verif.Spec.Text

/-!
# C70: every random value is consumed once
-/

set_option linter.unusedSectionVars false

namespace Rabe

variable {F G1 G2 Gt : Type} [Field F] [DecidableEq F] [AddCommGroup G1] [Module F G1]
  [AddCommGroup G2] [Module F G2] [AddCommGroup Gt] [Module F Gt]

/-! ## Set-up -/

/-- **C70, BSW.** -/
theorem Bsw.C70_setup (env : Env F G1 G2 Gt) : Uses (Bsw.setup env) { fr := 2, g1 := 1, g2 := 1 } := by
  unfold Bsw.setup; uses

/-- **C70, GHW11.** -/
theorem Ghw11.C70_setup (env : Env F G1 G2 Gt) : Uses (Ghw11.setup env) { fr := 2, g1 := 1, g2 := 1 } := by
  unfold Ghw11.setup; uses

/-- **C70, AW11.** -/
theorem Aw11.C70_setup : Uses (Aw11.setup : RM F G1 G2 Gt _) { g1 := 1, g2 := 1 } := by
  unfold Aw11.setup; uses

/-- **C70, LSW.** -/
theorem Lsw.C70_setup (env : Env F G1 G2 Gt) : Uses (Lsw.setup env) { fr := 3, g1 := 2, g2 := 2 } := by
  unfold Lsw.setup; uses

theorem Yct14.uses_new (g : Gt) (n : Str) : Uses (Yct14.Attribute.new g n : RM F G1 G2 Gt _) { fr := 1 } := by
  unfold Yct14.Attribute.new; uses

/-- **C70, YCT14.** -/
theorem Yct14.C70_setup (attrs : List Str) :
    Uses (Yct14.setup attrs : RM F G1 G2 Gt _) { fr := 1 + attrs.length, gt := 1 } := by
  unfold Yct14.setup
  exact (Uses.genFr.bind fun _ => Uses.genGt.bind fun _ => (Uses.mapL (Yct14.uses_new _) _).bind fun _ =>
    Uses.pure _).cast (by ext <;> simp)

/-- **C70, AC17.** -/
theorem Ac17.C70_setup (env : Env F G1 G2 Gt) : Uses (Ac17.setup env) { fr := 7, g1 := 1, g2 := 1 } := by
  unfold Ac17.setup; uses

/-- **C70, BDABE.** -/
theorem Bdabe.C70_setup (env : Env F G1 G2 Gt) : Uses (Bdabe.setup env) { fr := 1, g1 := 2, g2 := 2 } := by
  unfold Bdabe.setup; uses

/-- **C70, MKE08.** -/
theorem Mke08.C70_setup (env : Env F G1 G2 Gt) : Uses (Mke08.setup env) { fr := 2, g1 := 2, g2 := 2 } := by
  unfold Mke08.setup; uses

/-! ## Keys -/

/-- **C70, BSW.** A key for `n` attributes uses `n + 1` scalars. -/
theorem Bsw.C70_keygen (env : Env F G1 G2 Gt) (pk : Bsw.PublicKey G1 G2 Gt) (msk : Bsw.MasterKey F G2)
    (attrs : List Str) (h : attrs ≠ []) : Uses (Bsw.keygen env pk msk attrs) { fr := 1 + attrs.length } := by
  unfold Bsw.keygen
  rw [if_neg (by simpa using h)]
  refine (Uses.genFr.bind fun r => (Uses.lift _).bind fun _ => (Uses.mapL (n := { fr := 1 }) (fun j => ?_) _).bind fun _ =>
    Uses.pure _).cast (by ext <;> simp)
  unfold Bsw.keygenAttr; uses

/-- **C70, BSW.** A delegation to `n` attributes uses `n + 1` scalars. -/
theorem Bsw.C70_delegate (env : Env F G1 G2 Gt) (pk : Bsw.PublicKey G1 G2 Gt) (sk : Bsw.SecretKey G1 G2)
    (subset : List Str) (h : subset ≠ []) (hs : isSubset subset (sk.dJ.map (·.string)) = true) :
    Uses (Bsw.delegate env pk sk subset) { fr := 1 + subset.length } := by
  unfold Bsw.delegate
  rw [if_neg (by simp [hs]), if_neg (by simpa using h)]
  refine (Uses.genFr.bind fun r => (Uses.mapL (n := { fr := 1 }) (fun j => ?_) _).bind fun _ => Uses.pure _).cast
    (by ext <;> simp)
  unfold Bsw.delegateAttr; uses

/-- **C70, GHW11.** -/
theorem Ghw11.C70_keygen (env : Env F G1 G2 Gt) (pk : Ghw11.PublicKey G1 G2 Gt) (msk : Ghw11.MasterKey G1 G2 Gt)
    (attrs : List Str) (h : attrs ≠ []) : Uses (Ghw11.keygen (F := F) env pk msk attrs) { fr := 1 } := by
  unfold Ghw11.keygen
  rw [if_neg (by simpa using h)]
  uses

/-- **C70, GHW11.** -/
theorem Ghw11.C70_tkgen (sk : Ghw11.SecretKey G2) : Uses (Ghw11.tkgen sk : RM F G1 G2 Gt _) { fr := 1 } := by
  unfold Ghw11.tkgen; uses

/-- **C70, AW11.** An authority for `n` attributes uses `2 n` scalars. -/
theorem Aw11.C70_authgen (cm : CaseMap) (env : Env F G1 G2 Gt) (gk : Aw11.GlobalKey G1 G2) (attrs : List Str)
    (h : attrs ≠ []) : Uses (Aw11.authgen cm env gk attrs) { fr := 2 * attrs.length } := by
  unfold Aw11.authgen
  rw [if_neg (by simpa using h)]
  refine ((Uses.mapL (n := { fr := 2 }) (fun j => ?_) _).bind fun _ => Uses.pure _).cast (by ext <;> simp; ring)
  unfold Aw11.authgenAttr; uses

/-- **C70, LSW.** A key for a policy with `n` leaves uses the scalars of the sharing and one for each leaf. -/
theorem Lsw.C70_keygen (env : Env F G1 G2 Gt) (pk : Lsw.PublicKey G1 G2 Gt) (msk : Lsw.MasterKey F G1 G2)
    (text : Str) (lang : PolicyLanguage) (p : Pol) (hp : Denotes text lang p) :
    Uses (Lsw.keygen env pk msk text lang) { fr := draws p + p.leaves.length } := by
  have hp : parse text lang = .ok p.toValue := hp
  have hk : ∀ s, Uses (Lsw.keygenShare env pk msk s) { fr := 1 } := by
    intro s
    unfold Lsw.keygenShare
    refine (Uses.genFr.bind (k := 0) fun _ => ((Uses.lift _).bind (k := 0) fun b => ?_).cast (by ext <;> simp)).cast
      (by ext <;> simp)
    cases b <;> exact Uses.pure _
  unfold Lsw.keygen
  refine (Uses.lift_bind hp (Uses.shares_bind p _ fun S hS =>
    hS ▸ (Uses.mapL hk S).bind fun _ => Uses.pure _)).cast ?_
  ext <;> simp

/-- **C70, YCT14.** A key uses the scalars of the sharing. -/
theorem Yct14.C70_keygen (msk : Yct14.MasterKey F Gt) (text : Str) (lang : PolicyLanguage) (p : Pol)
    (hp : Denotes text lang p) : Uses (Yct14.keygen msk text lang : RM F G1 G2 Gt _) { fr := draws p } := by
  unfold Yct14.keygen
  exact (Uses.lift_bind hp (Uses.shares_bind p _ fun S _ => (Uses.lift _).bind fun _ => Uses.pure _)).cast
    (by ext <;> simp)

theorem Ac17.uses_cpKeygenAttr (env : Env F G1 G2 Gt) (msk : Ac17.MasterKey F G1 G2) (br : List F) (a : Str) :
    Uses (Ac17.cpKeygenAttr env msk br a) { fr := 1 } := by
  unfold Ac17.cpKeygenAttr; uses

/-- **C70, AC17 CP-ABE.** -/
theorem Ac17.C70_cp_keygen (env : Env F G1 G2 Gt) (msk : Ac17.MasterKey F G1 G2) (attrs : List Str) (h : attrs ≠ []) :
    Uses (Ac17.cpKeygen env msk attrs) { fr := 3 + attrs.length } := by
  unfold Ac17.cpKeygen
  rw [if_neg (by simpa using h)]
  exact (Uses.genFr.bind fun _ => Uses.genFr.bind fun _ => (Uses.lift _).bind fun _ =>
    (Uses.mapL (Ac17.uses_cpKeygenAttr env msk _) _).bind fun _ => Uses.genFr.bind fun _ => (Uses.lift _).bind fun _ =>
    (Uses.lift _).bind fun _ => Uses.pure _).cast (by ext <;> simp; omega)

theorem Ac17.uses_kpKeygenRow (env : Env F G1 G2 Gt) (msk : Ac17.MasterKey F G1 G2) (br sigmaP : List F) (cols : ℕ)
    (row : Str × List ℤ) : Uses (Ac17.kpKeygenRow env msk br sigmaP cols row) { fr := 1 } := by
  unfold Ac17.kpKeygenRow; uses

/-- **C70, AC17 KP-ABE.** A key uses two scalars, one for each further column and one for each row of the span
program. -/
theorem Ac17.C70_kp_keygen (env : Env F G1 G2 Gt) (msk : Ac17.MasterKey F G1 G2) (text : Str) (lang : PolicyLanguage)
    (v : PolicyValue) (hv : parse text lang = .ok v) (msp : AbePolicy) (hm : calculateMsp v = .ok msp) (row : List ℤ)
    (hr : Res.index msp.m 0 = .ok row) : Uses (Ac17.kpKeygen env msk text lang)
      { fr := 2 + (row.length - 1) + (msp.pi.zip msp.m).length } := by
  unfold Ac17.kpKeygen
  refine (Uses.lift_bind hv (Uses.lift_bind (a := msp) (by rw [hm]; rfl) (Uses.lift_bind hr (Uses.genFr.bind fun _ =>
    Uses.genFr.bind fun _ => (Uses.lift _).bind fun _ => (Uses.mapL (fun _ => Uses.genFr) _).bind fun _ =>
    (Uses.mapL (Ac17.uses_kpKeygenRow env msk _ _ _) _).bind fun _ => Uses.pure _)))).cast ?_
  ext <;> simp; omega

/-- **C70, BDABE.** -/
theorem Bdabe.C70_authgen (pk : Bdabe.PublicKey G1 G2 Gt) (msk : Bdabe.MasterKey F) (name : Str) :
    Uses (Bdabe.authgen pk msk name) { fr := 2 } := by
  unfold Bdabe.authgen; uses

/-- **C70, BDABE.** -/
theorem Bdabe.C70_keygen (pk : Bdabe.PublicKey G1 G2 Gt) (skA : Bdabe.SecretAuthorityKey F G1 G2) (name : Str) :
    Uses (Bdabe.keygen pk skA name) { fr := 1 } := by
  unfold Bdabe.keygen; uses

/-- **C70, MKE08.** -/
theorem Mke08.C70_authgen (name : Str) : Uses (Mke08.authgen name : RM F G1 G2 Gt _) { fr := 1 } := by
  unfold Mke08.authgen; uses

/-- **C70, MKE08.** -/
theorem Mke08.C70_keygen (pk : Mke08.PublicKey G1 G2 Gt) (msk : Mke08.MasterKey G1 G2) (name : Str) :
    Uses (Mke08.keygen (F := F) pk msk name) { fr := 1 } := by
  unfold Mke08.keygen; uses

/-! ## Encryption -/

/-- **C70, BSW.** -/
theorem Bsw.C70_encrypt (env : Env F G1 G2 Gt) (pk : Bsw.PublicKey G1 G2 Gt) (text : Str) (lang : PolicyLanguage)
    (p : Pol) (hp : Denotes text lang p) (m : Bytes) :
    Uses (Bsw.encrypt env pk text lang m) { fr := 1 + draws p, gt := 1, byte := 12 } := by
  unfold Bsw.encrypt
  refine (Uses.genFr.bind fun _ => Uses.genGt.bind fun _ => Uses.lift_bind hp (Uses.shares_bind p _ fun S _ =>
    (Uses.lift _).bind fun _ => (Uses.symmetric _ _ _).bind fun _ => Uses.pure _)).cast ?_
  ext <;> simp

/-- **C70, GHW11.** -/
theorem Ghw11.C70_encrypt (env : Env F G1 G2 Gt) (pk : Ghw11.PublicKey G1 G2 Gt) (text : Str) (lang : PolicyLanguage)
    (p : Pol) (hp : Denotes text lang p) (m : Bytes) :
    Uses (Ghw11.encrypt env pk text lang m) { fr := 1 + draws p + p.leaves.length, gt := 1, byte := 12 } := by
  have hk : ∀ s, Uses (Ghw11.encShare env pk s) { fr := 1 } := by
    intro s; unfold Ghw11.encShare; uses
  unfold Ghw11.encrypt
  refine (Uses.genFr.bind fun _ => Uses.genGt.bind fun _ => Uses.lift_bind hp (Uses.shares_bind p _ fun S hS =>
    Uses.lift_bind rfl (hS ▸ (Uses.mapL hk S).bind (k := { byte := 12 }) fun _ =>
      ((Uses.symmetric _ _ _).bind fun _ => Uses.pure _).cast (by ext <;> simp)))).cast ?_
  ext <;> simp; omega

/-- **C70, AW11.** Encryption shares `s` and `0` with separate scalars and uses one further scalar for each leaf. -/
theorem Aw11.C70_encrypt (cm : CaseMap) (env : Env F G1 G2 Gt) (gk : Aw11.GlobalKey G1 G2)
    (pks : List (Aw11.PublicKey G2 Gt)) (text : Str) (lang : PolicyLanguage) (p : Pol) (hp : Denotes text lang p)
    (m : Bytes) : Uses (Aw11.encrypt cm env gk pks text lang m)
      { fr := 1 + draws p + draws p + p.leaves.length, gt := 1, byte := 12 } := by
  have hk : ∀ w x, Uses (Aw11.encShare cm env gk pks w x) { fr := 1 } := by
    intro w x
    unfold Aw11.encShare
    refine (Uses.genFr.bind (k := 0) fun _ => ?_).cast (by ext <;> simp)
    cases Aw11.findPkAttr (removeIndex (cm.upper x.1.1)) pks with
    | none => exact Uses.pure _
    | some a => exact ((Uses.lift _).bind fun _ => Uses.pure _).cast (by ext <;> simp)
  unfold Aw11.encrypt
  refine (Uses.lift_bind hp ((Uses.lift _).bind fun _ => (Uses.lift _).bind fun _ => Uses.genFr.bind fun _ =>
    Uses.shares_bind p _ fun S hS => Uses.lift_bind (a := S) rfl (Uses.shares_bind p _ fun W _ =>
    Uses.lift_bind (a := W) rfl (Uses.genGt.bind fun _ => (((Uses.mapL (hk W) S.zipIdx).cast
      (k := { fr := p.leaves.length }) (by ext <;> simp [hS])).bind fun _ =>
      (Uses.symmetric _ _ _).bind fun _ => Uses.pure _))))).cast ?_
  ext <;> simp; omega

theorem Lsw.uses_sxLoop : ∀ (n i : ℕ) (sx : List F),
    Uses (Lsw.sxLoop n i sx : RM F G1 G2 Gt (List F)) { fr := n }
  | 0, _, _ => Uses.pure _
  | n + 1, i, sx => (Uses.genFr.bind fun _ => (Uses.lift _).bind fun _ => (Uses.lift _).bind fun _ =>
      Lsw.uses_sxLoop n (i + 1) _).cast (by ext <;> simp; omega)

/-- **C70, LSW.** Encryption for `n` attributes uses `n + 1` scalars. -/
theorem Lsw.C70_encrypt (env : Env F G1 G2 Gt) (pk : Lsw.PublicKey G1 G2 Gt) (attrs : List Str) (m : Bytes) :
    Uses (Lsw.encrypt env pk attrs m) { fr := 1 + attrs.length, gt := 1, byte := 12 } := by
  unfold Lsw.encrypt
  split
  · exact Uses.err _
  exact (Uses.genFr.bind fun _ => (Lsw.uses_sxLoop _ _ _).bind fun _ => (Uses.lift _).bind fun _ =>
    Uses.genGt.bind fun _ => (Uses.symmetric _ _ _).bind fun _ => Uses.pure _).cast (by ext <;> simp)

/-- **C70, YCT14.** -/
theorem Yct14.C70_encrypt (env : Env F G1 G2 Gt) (pk : Yct14.PublicKey F Gt) (attrs : List Str) (m : Bytes) :
    Uses (Yct14.encrypt env pk attrs m) { fr := 1, byte := 12 } := by
  unfold Yct14.encrypt
  split
  · exact Uses.err _
  split
  · exact Uses.err _
  exact (Uses.genFr.bind fun _ => (Uses.lift _).bind fun _ => (Uses.symmetric _ _ _).bind fun _ => Uses.pure _).cast
    (by ext <;> simp)

/-- **C70, AC17 CP-ABE.** -/
theorem Ac17.C70_cp_encrypt (env : Env F G1 G2 Gt) (pk : Ac17.PublicKey G1 G2 Gt) (text : Str) (m : Bytes)
    (lang : PolicyLanguage) : Uses (Ac17.cpEncrypt env pk text m lang) { fr := 2, gt := 1, byte := 12 } := by
  unfold Ac17.cpEncrypt
  exact ((Uses.lift _).bind fun _ => (Uses.lift _).bind fun _ => (Uses.lift _).bind fun _ => Uses.genFr.bind fun _ =>
    Uses.genFr.bind fun _ => (Uses.lift _).bind fun _ => (Uses.lift _).bind fun _ => Uses.genGt.bind fun _ =>
    (Uses.symmetric _ _ _).bind fun _ => Uses.pure _).cast (by ext <;> simp)

/-- **C70, AC17 KP-ABE.** -/
theorem Ac17.C70_kp_encrypt (env : Env F G1 G2 Gt) (pk : Ac17.PublicKey G1 G2 Gt) (attrs : List Str) (m : Bytes) :
    Uses (Ac17.kpEncrypt env pk attrs m) { fr := 2, gt := 1, byte := 12 } := by
  unfold Ac17.kpEncrypt
  exact (Uses.genFr.bind fun _ =>
    Uses.genFr.bind fun _ => (Uses.lift _).bind fun _ => (Uses.lift _).bind fun _ => Uses.genGt.bind fun _ =>
    (Uses.symmetric _ _ _).bind fun _ => Uses.pure _).cast (by ext <;> simp)

/-- **C70, BDABE.** Encryption uses one scalar for each conjunction of the policy. -/
theorem Bdabe.C70_encrypt (env : Env F G1 G2 Gt) (pk : Bdabe.PublicKey G1 G2 Gt)
    (keys : List (Bdabe.PublicAttributeKey G1 G2 Gt)) (text : Str) (lang : PolicyLanguage) (m : Bytes)
    (dnf : List (DnfTerm G1 G2 Gt))
    (hd : DnfPolicy.fromString text (keys.map Bdabe.PublicAttributeKey.view) lang = .ok dnf) :
    Uses (Bdabe.encrypt env pk keys text lang m) { fr := dnf.length, g1 := 1, g2 := 1, byte := 12 } := by
  have hk : ∀ msg t, Uses (Bdabe.encTerm (F := F) pk msg t) { fr := 1 } := by
    intro msg t; unfold Bdabe.encTerm; uses
  unfold Bdabe.encrypt
  refine ((Uses.lift _).bind (k := { fr := dnf.length, g1 := 1, g2 := 1, byte := 12 }) fun pol => ?_).cast
    (by ext <;> simp)
  split
  · exact (Uses.lift_bind (a := dnf) (by rw [hd]; rfl) (Uses.genG1.bind fun _ => Uses.genG2.bind fun _ =>
      (Uses.mapL (hk _) _).bind fun _ => (Uses.symmetric _ _ _).bind fun _ => Uses.pure _)).cast (by ext <;> simp)
  · exact Uses.err _

/-- **C70, MKE08.** -/
theorem Mke08.C70_encrypt (env : Env F G1 G2 Gt) (pk : Mke08.PublicKey G1 G2 Gt)
    (keys : List (Mke08.PublicAttributeKey G1 G2 Gt)) (text : Str) (lang : PolicyLanguage) (m : Bytes)
    (dnf : List (DnfTerm G1 G2 Gt))
    (hd : DnfPolicy.fromString text (keys.map Mke08.PublicAttributeKey.view) lang = .ok dnf) :
    Uses (Mke08.encrypt env pk keys text lang m) { fr := 1 + dnf.length, g1 := 1, g2 := 1, byte := 12 } := by
  have hk : ∀ msg msg' t, Uses (Mke08.encTerm (F := F) pk msg msg' t) { fr := 1 } := by
    intro msg msg' t; unfold Mke08.encTerm; uses
  unfold Mke08.encrypt
  refine ((Uses.lift _).bind (k := { fr := 1 + dnf.length, g1 := 1, g2 := 1, byte := 12 }) fun pol => ?_).cast
    (by ext <;> simp)
  split
  · exact (Uses.lift_bind (a := dnf) (by rw [hd]; rfl) (Uses.genG1.bind fun _ => Uses.genG2.bind fun _ =>
      Uses.genFr.bind fun _ => (Uses.mapL (hk _ _) _).bind fun _ => (Uses.symmetric _ _ _).bind fun _ =>
      Uses.pure _)).cast (by ext <;> simp)
  · exact Uses.err _

end Rabe
