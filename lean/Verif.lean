import Verif.Props.Vlong
import Verif.Props.Der
import Verif.Props.Sponge
import Verif.Props.MD
import Verif.Props.Blake2
import Verif.Props.Blake3
import Verif.Props.Mac
import Verif.Props.Poly1305
import Verif.Props.Gcm
import Verif.Props.ChachaPoly
import Verif.Props.Ccm
import Verif.Props.BlockCipher
import Verif.Props.TCrew
import Verif.Props.K12
import Verif.Props.CtrDrbg
import Verif.Props.NumTheory
import Verif.Props.Rsa
import Verif.Props.Pkcs1
import Verif.Props.Ec
import Verif.Props.EcEd
import Verif.Props.Xecdh
import Verif.Props.Ecc
import Verif.Props.Ecdsa
import Verif.Props.EccSig
import Verif.Props.Ecdh
import Verif.Props.Sm2
import Verif.Props.EdDsa
import Verif.Props.RsaDerPub
import Verif.Props.RsaDerPriv
import Verif.Props.RsaKeygen
import Verif.Props.Sha
import Verif.Props.Keccak
import Verif.Props.National
import Verif.Props.Gimli
import Verif.Props.Variants
import Verif.Props.VariantsHash
import Verif.Props.LargeInt
import Verif.Props.Concrete
import Verif.Props.ConcreteModes
import Verif.Props.ConcreteSponge
import Verif.Props.CrewExec
import Verif.Props.Pkcs1Glue
import Verif.Props.EccCtx
import Verif.Props.ConcreteSig
import Verif.Props.ConcreteEcc
import Verif.Props.Query
import Verif.Props.Dispatch
import Verif.Props.RsaSchemes
import Verif.Props.AeadObj
import Verif.Props.MacXof
import Verif.Props.SigSession
import Verif.Props.EdSession
import Verif.Props.Sm2Session
import Verif.Props.XecdhSession
import Verif.Props.EcdhSession
import Verif.Props.DecSession
