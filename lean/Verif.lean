import Verif.Model.Basic
import Verif.Model.Encoder
import Verif.Model.Decoder
import Verif.Spec.Tlv
import Verif.Lemmas.Decoder
import Verif.Lemmas.Tlv
import Verif.Lemmas.Fields
import Verif.Lemmas.Read
import Verif.Lemmas.Encoder
import Verif.Props.Tlv
import Verif.Model.Name
import Verif.Lemmas.Safety
import Verif.Lemmas.Stable
import Verif.Spec.Name
import Verif.Lemmas.Name
import Verif.Model.NameHash
import Verif.Props.Name
import Verif.Model.NameUri
import Verif.Lemmas.NameUri
import Verif.Props.NameUri
import Verif.Model.Framing
import Verif.Spec.Framing
import Verif.Lemmas.Framing
import Verif.Lemmas.Reader
import Verif.Props.Framing
import Verif.Model.Text
import Verif.Model.Packet
import Verif.Lemmas.Packet
import Verif.Lemmas.LpPacket
import Verif.Lemmas.Cut
import Verif.Lemmas.Iso
import Verif.Spec.Packet
import Verif.Lemmas.Fields2
import Verif.Props.Decode
import Verif.Lemmas.Interest
import Verif.Lemmas.Utf8
import Verif.Props.Data
import Verif.Props.Interest
import Verif.Model.Match
import Verif.Props.Match
import Verif.Props.Control
import Verif.Model.Objects
import Verif.Spec.Objects
import Verif.Lemmas.Objects
import Verif.Props.Objects
import Verif.Props.InterestObj
import Verif.Props.Nonce
import Verif.Model.Node
import Verif.Spec.Node
import Verif.Lemmas.Node
import Verif.Lemmas.NodeInv
import Verif.Lemmas.NodeLoop
import Verif.Props.NodeCallbacks
import Verif.Props.NodeRemove
import Verif.Props.NodeExamples
import Verif.Lemmas.NodeTimers
import Verif.Props.NodeTimers
import Verif.Lemmas.NodePending
import Verif.Props.NodeTimeout
import Verif.Lemmas.NodeFilters
import Verif.Props.NodeFilters
import Verif.Props.NodePrefix
import Verif.Props.NodeConnect
import Verif.Props.NodeRegister
import Verif.Model.ContentCache
import Verif.Spec.ContentCache
import Verif.Lemmas.History
import Verif.Lemmas.ContentCache
import Verif.Props.ContentCache
import Verif.Model.SegmentFetcher
import Verif.Spec.SegmentFetcher
import Verif.Props.SegmentFetcher
import Verif.Model.Storage
import Verif.Spec.Storage
import Verif.Props.Storage
import Verif.Model.ReExpress
import Verif.Props.ReExpress
import Verif.Props.NodeSend
import Verif.Model.Schedule
import Verif.Spec.Schedule
import Verif.Lemmas.Dates
import Verif.Lemmas.Schedule
import Verif.Props.Schedule
import Verif.Model.ScheduleWire
import Verif.Props.ScheduleWire
import Verif.Model.CertStore
import Verif.Model.Validator
import Verif.Spec.Validator
import Verif.Lemmas.Validator
import Verif.Lemmas.ValidatorSys
import Verif.Lemmas.ValidatorRaise
import Verif.Lemmas.ValidatorSilent
import Verif.Props.Validator
import Verif.Spec.ValidatorPolicy
import Verif.Props.ValidatorPolicy
import Verif.Spec.Command
import Verif.Lemmas.Command
import Verif.Lemmas.CommandFresh
import Verif.Model.Preparer
import Verif.Props.Command
import Verif.Model.Regex
import Verif.Spec.Regex
import Verif.Lemmas.RegexCompile
import Verif.Lemmas.RegexTop
import Verif.Props.Regex
import Verif.Model.Iblt
import Verif.Spec.Iblt
import Verif.Lemmas.Iblt
import Verif.Lemmas.IbltPeel
import Verif.Props.Iblt
import Verif.Model.PSyncSegments
import Verif.Spec.PSyncSegments
import Verif.Props.PSyncSegments
import Verif.Model.PSync
import Verif.Spec.PSync
import Verif.Lemmas.PSync
import Verif.Props.PSync
import Verif.Props.PSyncPending
import Verif.Props.PSyncAgain
import Verif.Model.PSyncUsers
import Verif.Spec.PSyncUsers
import Verif.Lemmas.PSyncUsers
import Verif.Props.PSyncUsers
import Verif.Model.ChronoSync
import Verif.Spec.ChronoSync
import Verif.Lemmas.ChronoSync
import Verif.Props.DigestTree
import Verif.Lemmas.ChronoState
import Verif.Lemmas.ChronoLog
import Verif.Lemmas.ChronoRun
import Verif.Props.ChronoSync
import Verif.Props.ChronoMeet
import Verif.Props.ChronoAsk
import Verif.Props.ChronoWitness
import Verif.Props.ChronoInit
import Verif.Model.KeyChain
import Verif.Spec.KeyChain
import Verif.Lemmas.KeyStore
import Verif.Lemmas.KeyConsistent
import Verif.Lemmas.KeyCoherent
import Verif.Lemmas.KeyMethods
import Verif.Lemmas.KeySigning
import Verif.Lemmas.KeyHistory
import Verif.Lemmas.KeyExample
import Verif.Props.KeyChain
import Verif.Props.KeySign
import Verif.Props.KeyEffects
import Verif.Props.KeyDelete
import Verif.Props.KeyWitness
import Verif.Model.Encrypted
import Verif.Spec.Encrypted
import Verif.Props.Encrypted
import Verif.Model.Nac
import Verif.Spec.Nac
import Verif.Lemmas.NacEncryptor
import Verif.Props.NacEncryptor
import Verif.Props.NacPublish
import Verif.Props.NacWitness
import Verif.Lemmas.NacDecryptor
import Verif.Lemmas.NacDecryptorRun
import Verif.Lemmas.NacProvenance
import Verif.Lemmas.NacDead
import Verif.Props.NacDecryptor
import Verif.Props.NacDecryptorWitness
import Verif.Spec.NacSystem
import Verif.Lemmas.NacSystem
import Verif.Lemmas.NacSystemRun
import Verif.Props.NacSystem
import Verif.Props.NacSystemWitness
import Verif.Model.Der
import Verif.Spec.Der
import Verif.Lemmas.Der
import Verif.Lemmas.DerParse
import Verif.Lemmas.DerValues
import Verif.Props.Der
import Verif.Props.DerWitness
import Verif.Model.PrivateKey
import Verif.Spec.PrivateKey
import Verif.Lemmas.PrivateKey
import Verif.Props.PrivateKey
import Verif.Props.PrivateKeyWitness
import Verif.Model.TpmFile
import Verif.Spec.TpmFile
import Verif.Lemmas.TpmFile
import Verif.Props.TpmFile
import Verif.Props.TpmFileWitness
import Verif.Model.PibSqlite
import Verif.Spec.PibSqlite
import Verif.Lemmas.PibSqlite
import Verif.Lemmas.PibSqliteRep
import Verif.Props.PibSqlite
import Verif.Props.PibSqliteWitness
import Verif.Model.ExcludeRange
import Verif.Spec.ExcludeRange
import Verif.Props.ExcludeRange
import Verif.Model.EncryptorV1
import Verif.Model.GroupManager
import Verif.Spec.GroupManager
import Verif.Lemmas.GroupInterval
import Verif.Lemmas.GroupManager
import Verif.Lemmas.GroupCalls
import Verif.Lemmas.GroupPackets
import Verif.Props.GroupManager
import Verif.Props.GroupManagerWitness
import Verif.Model.Producer
import Verif.Spec.Producer
import Verif.Lemmas.Producer
import Verif.Lemmas.ProducerInv
import Verif.Lemmas.ProducerStep
import Verif.Lemmas.ProducerRetry
import Verif.Lemmas.ProducerFull
import Verif.Lemmas.ProducerGiven
import Verif.Lemmas.ProducerExclude
import Verif.Props.Producer
import Verif.Props.ProducerWitness
import Verif.Model.Consumer
import Verif.Spec.Consumer
import Verif.Lemmas.Consumer
import Verif.Lemmas.ConsumerInv
import Verif.Lemmas.ConsumerCount
import Verif.Props.Consumer
import Verif.Props.ConsumerWitness
import Verif.Spec.ConsumerSystem
import Verif.Lemmas.ConsumerSystem
import Verif.Props.ConsumerSystem
import Verif.Props.ConsumerSystemWitness
import Verif.Model.SigningInfo
import Verif.Spec.SigningInfo
import Verif.Props.SigningInfo
import Verif.Model.ProtobufTlv
import Verif.Spec.ProtobufTlv
import Verif.Lemmas.ProtobufTlv
import Verif.Props.ProtobufTlv
import Verif.Model.BoostInfo
import Verif.Spec.BoostInfo
import Verif.Lemmas.BoostInfo
import Verif.Props.BoostInfo
import Verif.Model.ValidatorConfig
import Verif.Spec.ValidatorConfig
import Verif.Lemmas.ValidatorConfig
import Verif.Props.ValidatorConfig
import Verif.Model.ConfigPolicy
import Verif.Spec.ConfigPolicy
import Verif.Lemmas.ConfigPolicyRules
import Verif.Lemmas.ConfigPolicy
import Verif.Lemmas.ConfigPolicyRuns
import Verif.Lemmas.ConfigPolicyTimes
import Verif.Props.ConfigPolicy
import Verif.Props.ConfigPolicyWitness
import Verif.Model.TrustAnchors
import Verif.Spec.TrustAnchors
import Verif.Lemmas.TrustAnchors
import Verif.Lemmas.TrustAnchorsFind
import Verif.Props.TrustAnchors
import Verif.Model.IdentityStorage
import Verif.Spec.IdentityStorage
import Verif.Lemmas.IdentityStorage
import Verif.Lemmas.IdentityStorageMem
import Verif.Props.IdentityStorage
import Verif.Model.HmacSign
import Verif.Spec.HmacSign
import Verif.Lemmas.HmacSign
import Verif.Props.HmacSign
import Verif.Model.SelfVerify
import Verif.Spec.SelfVerify
import Verif.Lemmas.SelfVerify
import Verif.Props.SelfVerify
import Verif.Model.CommandSigner
import Verif.Spec.CommandSigner
import Verif.Props.CommandSigner
import Verif.Model.Certificate
import Verif.Spec.Certificate
import Verif.Lemmas.Certificate
import Verif.Props.Certificate
import Verif.Props.CertificateWitness
import Verif.Model.Link
import Verif.Spec.Link
import Verif.Props.Link
import Verif.Model.IdentityCertificate
import Verif.Props.IdentityCertificate
import Verif.Model.Equality
import Verif.Props.Equality
