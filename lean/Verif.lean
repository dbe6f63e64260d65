import Verif.Props.Hex
import Verif.Props.SequentialData
import Verif.Props.Base
import Verif.Props.BaseExact
import Verif.Props.BaseObject
import Verif.Props.ShaConst
import Verif.Props.Md5
import Verif.Props.Md5Sin
import Verif.Props.Collision
import Verif.Props.Lifetime
import Verif.Props.Keccak
import Verif.Props.Hash
import Verif.Props.Names
import Verif.Props.Hmac
import Verif.Props.Otp
import Verif.Props.Totp
import Verif.Props.TotpBefore
import Verif.Props.Blowfish
import Verif.Props.HashEncoder
import Verif.Props.HmacEncoder
import Verif.Props.BaseClasses
import Verif.Props.SdArgs
import Verif.Props.Examples
import Verif.Props.InPlace
import Verif.Props.BaseThrow
import Verif.Props.Stream
import Verif.Props.HashThrow
import Verif.Props.OtpThrow
import Verif.Props.HmacLife
import Verif.Props.BlowfishInj
import Verif.Props.Again
import Verif.Props.AgainViolation
import Verif.Props.HmacAgain
import Verif.Props.HmacAgainViolation
import Verif.Props.HmacAgainEnc
import Verif.Props.SpongeCollision
import Verif.Props.HmacCollision
import Verif.Tests.Sha
import Verif.Tests.Sha3
import Verif.Tests.Shake
import Verif.Tests.Misc
import Verif.Tests.Blowfish
import Verif.Model.Overlap
import Verif.Spec.Overlap
import Verif.Proofs.Overlap
import Verif.Proofs.OverlapAll
import Verif.Props.Overlap
import Verif.Proofs.Residue
import Verif.Props.Residue
import Verif.Props.ShaStale
import Verif.Props.BlowfishKey
import Verif.Props.BasePieces
import Verif.Props.BaseOrder
import Verif.Props.BaseOrderIff
import Verif.Props.OtpThreads
import Verif.Props.BlowfishObjects
import Verif.Props.BlowfishThreads
import Verif.Props.Null
import Verif.Props.HashThreads
import Verif.Props.HashLocked
import Verif.Props.HexIff
import Verif.Props.Iff
import Verif.Props.BaseIff
import Verif.Props.BlowfishStr
import Verif.Model.ContextCopy
import Verif.Spec.ContextCopy
import Verif.Props.ContextCopy
import Verif.Model.Trace
import Verif.Spec.Trace
import Verif.Props.Trace
import Verif.Model.TraceOther
import Verif.Spec.TraceOther
import Verif.Props.TraceOther
import Verif.Spec.Work
import Verif.Props.Work
import Verif.Spec.Fetch
import Verif.Proofs.Fetch
import Verif.Proofs.FetchKeccak
import Verif.Proofs.FetchAll
import Verif.Model.HmacTorn
import Verif.Props.Fetch
import Verif.Model.CharSign
import Verif.Proofs.CharSign
import Verif.Props.CharSign
import Verif.Model.TraceText
import Verif.Spec.TextClass
import Verif.Proofs.TextErase
import Verif.Proofs.TextLeak
import Verif.Proofs.TextDecode
import Verif.Proofs.TextEncode
import Verif.Proofs.TextHex
import Verif.Proofs.TextMask
import Verif.Props.TextTrace
import Verif.Spec.TextWork
import Verif.Proofs.TextWork
import Verif.Props.TextWork
import Verif.Props.TextOut
import Verif.Proofs.TextPad
import Verif.Model.TextTorn
import Verif.Spec.Torn
import Verif.Proofs.TextTorn
import Verif.Proofs.TextTornSafe
import Verif.Props.TextTorn
import Verif.Model.TextTornObject
import Verif.Proofs.TextTornObject
import Verif.Props.TextTornObject
import Verif.Proofs.FetchText
import Verif.Props.FetchText
import Verif.Proofs.FillText
import Verif.Props.BaseThrowIff
import Verif.Props.OtpThrowCache
