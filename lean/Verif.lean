import Verif.Base
import Verif.Lemmas.Aes
import Verif.Lemmas.AesStd
import Verif.Lemmas.Armor
import Verif.Lemmas.Blowfish
import Verif.Lemmas.BlowfishPi
import Verif.Lemmas.BlowfishStd
import Verif.Lemmas.Camellia
import Verif.Lemmas.CamelliaStd
import Verif.Lemmas.Cast128
import Verif.Lemmas.CastStd
import Verif.Lemmas.Cfb
import Verif.Lemmas.CipherWords
import Verif.Lemmas.Compress
import Verif.Lemmas.CompressDemo
import Verif.Lemmas.Copy
import Verif.Lemmas.Crc24
import Verif.Lemmas.Crypt
import Verif.Lemmas.CryptSigned
import Verif.Lemmas.Des
import Verif.Lemmas.DesStd
import Verif.Lemmas.Framing
import Verif.Lemmas.Generated
import Verif.Lemmas.HashCompress
import Verif.Lemmas.HashRun
import Verif.Lemmas.HashStd
import Verif.Lemmas.HashWords
import Verif.Lemmas.Idea
import Verif.Lemmas.IdeaStd
import Verif.Lemmas.Includes
import Verif.Lemmas.KeyLayout
import Verif.Lemmas.KeyPkt
import Verif.Lemmas.Merge
import Verif.Lemmas.Mpi
import Verif.Lemmas.OctetBits
import Verif.Lemmas.Packets
import Verif.Lemmas.Partial
import Verif.Lemmas.PgpCfb
import Verif.Lemmas.PiDigits
import Verif.Lemmas.Pka
import Verif.Lemmas.Printed
import Verif.Lemmas.Progress
import Verif.Lemmas.Radix64
import Verif.Lemmas.Reread
import Verif.Lemmas.S2K
import Verif.Lemmas.Shown
import Verif.Lemmas.Signed
import Verif.Lemmas.SignedCrypt
import Verif.Lemmas.SineTable
import Verif.Lemmas.Subpacket
import Verif.Lemmas.Tag2
import Verif.Lemmas.Tag5
import Verif.Lemmas.Text
import Verif.Lemmas.Time
import Verif.Lemmas.Twofish
import Verif.Lemmas.TwofishRounds
import Verif.Lemmas.TwofishStd
import Verif.Lemmas.Valid
import Verif.Lemmas.Verify
import Verif.Model.Aes
import Verif.Model.Algs
import Verif.Model.Armor
import Verif.Model.Blowfish
import Verif.Model.Camellia
import Verif.Model.Cast128
import Verif.Model.Cfb
import Verif.Model.CipherBase
import Verif.Model.Classes
import Verif.Model.Cleartext
import Verif.Model.Cli
import Verif.Model.Commands
import Verif.Model.Compare
import Verif.Model.Compress
import Verif.Model.Copy
import Verif.Model.Crc24
import Verif.Model.Crypt
import Verif.Model.CryptPka
import Verif.Model.CryptSigned
import Verif.Model.Des
import Verif.Model.Edit
import Verif.Model.Fill
import Verif.Model.Framing
import Verif.Model.Gpg
import Verif.Model.GpgRevoke
import Verif.Model.GpgShow
import Verif.Model.GpgValid
import Verif.Model.Hashes
import Verif.Model.Idea
import Verif.Model.Includes
import Verif.Model.Key
import Verif.Model.KeyPkt
import Verif.Model.Keygen
import Verif.Model.List
import Verif.Model.Merge
import Verif.Model.Message
import Verif.Model.Mpi
import Verif.Model.OpenSsl
import Verif.Model.PacketSetters
import Verif.Model.Packets
import Verif.Model.Pka
import Verif.Model.Pkcs1
import Verif.Model.Radix64
import Verif.Model.Reread
import Verif.Model.Revoke
import Verif.Model.Rng
import Verif.Model.S2K
import Verif.Model.Setters
import Verif.Model.Show
import Verif.Model.Sigcalc
import Verif.Model.Sign
import Verif.Model.Strings
import Verif.Model.Subpacket
import Verif.Model.Sym
import Verif.Model.Tag2
import Verif.Model.Tag5
import Verif.Model.Text
import Verif.Model.Time
import Verif.Model.Twofish
import Verif.Model.Valid
import Verif.Model.Verify
import Verif.Props.C01
import Verif.Props.C02
import Verif.Props.C03
import Verif.Props.C04
import Verif.Props.C05
import Verif.Props.C06
import Verif.Props.C06Packets
import Verif.Props.C07
import Verif.Props.C08
import Verif.Props.C09
import Verif.Props.C10
import Verif.Props.C11
import Verif.Props.C12
import Verif.Props.C13
import Verif.Props.C14
import Verif.Props.C15
import Verif.Props.C16
import Verif.Props.C17
import Verif.Props.C18
import Verif.Props.C19
import Verif.Props.C20
import Verif.Props.C21
import Verif.Props.C22
import Verif.Props.C23
import Verif.Props.C24
import Verif.Props.C24Draw
import Verif.Props.C25
import Verif.Props.C26
import Verif.Props.C27
import Verif.Props.C28
import Verif.Props.C28Malleable
import Verif.Props.C29
import Verif.Props.C30
import Verif.Props.C31
import Verif.Props.C32
import Verif.Props.C33
import Verif.Props.C34
import Verif.Props.C35
import Verif.Props.C36
import Verif.Props.C36Limits
import Verif.Props.C36Twice
import Verif.Props.C37
import Verif.Props.C37Iff
import Verif.Props.C37Msg
import Verif.Props.C38
import Verif.Props.C39
import Verif.Props.C40
import Verif.Props.C41
import Verif.Props.C42
import Verif.Props.C43
import Verif.Props.C43Cert
import Verif.Props.C44
import Verif.Props.C45
import Verif.Props.C46
import Verif.Props.C47
import Verif.Props.C47Sig
import Verif.Props.C48
import Verif.Props.C49
import Verif.Props.C50
import Verif.Props.C51
import Verif.Props.C52
import Verif.Props.C53
import Verif.Props.C53Documents
import Verif.Props.C53Nonce
import Verif.Props.C54
import Verif.Props.C55
import Verif.Props.C56
import Verif.Props.C57
import Verif.Props.C57Crypt
import Verif.Props.C57Demo
import Verif.Props.C57File
import Verif.Props.C57FileDemo
import Verif.Props.C57Signed
import Verif.Props.C58
import Verif.Props.C58Demo
import Verif.Props.C59
import Verif.Props.C59Keys
import Verif.Props.C59Revoke
import Verif.Props.C59Write
import Verif.Props.C60
import Verif.Props.C61
import Verif.Props.C62
import Verif.Props.C63
import Verif.Props.C64
import Verif.Props.C64Shape
import Verif.Props.C65
import Verif.Props.C66
import Verif.Props.C66Nested
import Verif.Props.C66Packed
import Verif.Props.C67
import Verif.Props.C68
import Verif.Props.C69
import Verif.Props.C70
import Verif.Props.C71
import Verif.Props.C72
import Verif.Props.C72Config
import Verif.Props.C72Revoke
import Verif.Props.C72Secret
import Verif.Props.C72Show
import Verif.Props.C72Valid
import Verif.Props.C73
import Verif.Props.C74
import Verif.Props.C74Packet
import Verif.Props.C75
import Verif.Props.C76
import Verif.Props.C77
import Verif.Props.C77Verify
import Verif.Props.C78
import Verif.Props.C78Documents
import Verif.Props.C79
import Verif.Props.CliDemo
import Verif.Spec.Aes
import Verif.Spec.Armor
import Verif.Spec.BlockCipher
import Verif.Spec.Blowfish
import Verif.Spec.Calendar
import Verif.Spec.Camellia
import Verif.Spec.Cast128
import Verif.Spec.Cfb
import Verif.Spec.Classes
import Verif.Spec.Cli
import Verif.Spec.Compress
import Verif.Spec.Crc24
import Verif.Spec.Des
import Verif.Spec.Framing
import Verif.Spec.Gpg
import Verif.Spec.GpgShown
import Verif.Spec.Hash
import Verif.Spec.HashHistory
import Verif.Spec.Idea
import Verif.Spec.KeyLayout
import Verif.Spec.Memory
import Verif.Spec.MessageGrammar
import Verif.Spec.OpenSsl
import Verif.Spec.Policy
import Verif.Spec.Reread
import Verif.Spec.Rng
import Verif.Spec.S2K
import Verif.Spec.SessionNumbers
import Verif.Spec.Setters
import Verif.Spec.Shown
import Verif.Spec.ShownPacked
import Verif.Spec.SigHash
import Verif.Spec.SigNumbers
import Verif.Spec.Signature
import Verif.Spec.Strings
import Verif.Spec.SymCipher
import Verif.Spec.Twofish
import Verif.Spec.Valid
