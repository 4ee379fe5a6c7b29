import Verif.Go.Base58
import Verif.Go.Basic
import Verif.Go.Heap
import Verif.Go.Hex
import Verif.Model.Address
import Verif.Model.Block
import Verif.Model.ConcBuild
import Verif.Model.ConcDecrypt
import Verif.Model.ConcMerkle
import Verif.Model.ConcMix
import Verif.Model.ConcRead
import Verif.Model.ConcRedeem
import Verif.Model.ConcScript
import Verif.Model.ConcScriptRead
import Verif.Model.Concurrent
import Verif.Model.Crypto
import Verif.Model.Double
import Verif.Model.Encryption
import Verif.Model.Float
import Verif.Model.Heap
import Verif.Model.HeapSerial
import Verif.Model.Objects
import Verif.Model.Opcodes
import Verif.Model.PushData
import Verif.Model.RedeemObjects
import Verif.Model.Script
import Verif.Model.ScriptObjects
import Verif.Model.SigHash
import Verif.Model.SigHashFlag
import Verif.Model.SortSteps
import Verif.Model.Stateful
import Verif.Model.Text
import Verif.Model.Tx
import Verif.Model.Utils
import Verif.Model.Work
import Verif.Spec.Asm
import Verif.Spec.Authorise
import Verif.Spec.Balance
import Verif.Spec.Base58
import Verif.Spec.Bip34
import Verif.Spec.Chain
import Verif.Spec.Cipher
import Verif.Spec.Coinbase
import Verif.Spec.ConcBuild
import Verif.Spec.ConcDecrypt
import Verif.Spec.ConcLog
import Verif.Spec.ConcMerkle
import Verif.Spec.ConcMix
import Verif.Spec.ConcRead
import Verif.Spec.ConcRedeem
import Verif.Spec.ConcScript
import Verif.Spec.ConcScriptRead
import Verif.Spec.Concurrent
import Verif.Spec.Decimal
import Verif.Spec.Digest
import Verif.Spec.Escrow
import Verif.Spec.Failure
import Verif.Spec.Fee
import Verif.Spec.Flags
import Verif.Spec.Float
import Verif.Spec.Handover
import Verif.Spec.Interp
import Verif.Spec.Ledger
import Verif.Spec.LockTime
import Verif.Spec.Memory
import Verif.Spec.Merkle
import Verif.Spec.Notary
import Verif.Spec.Objects
import Verif.Spec.Offer
import Verif.Spec.Order
import Verif.Spec.OwnMemory
import Verif.Spec.Pledge
import Verif.Spec.Pool
import Verif.Spec.Publish
import Verif.Spec.RedeemObjects
import Verif.Spec.Request
import Verif.Spec.ScriptObjects
import Verif.Spec.Secret
import Verif.Spec.SignWork
import Verif.Spec.Signing
import Verif.Spec.SortSteps
import Verif.Spec.Target
import Verif.Spec.Tokens
import Verif.Spec.TxBytes
import Verif.Spec.TxFormat
import Verif.Spec.TxHistory
import Verif.Spec.Typo
import Verif.Spec.Versions
import Verif.Lemmas.Asm
import Verif.Lemmas.Base58
import Verif.Lemmas.Basic
import Verif.Lemmas.ConcBuild
import Verif.Lemmas.ConcMix
import Verif.Lemmas.ConcMixLog
import Verif.Lemmas.ConcMixOrder
import Verif.Lemmas.ConcRedeem
import Verif.Lemmas.ConcRedeemInv
import Verif.Lemmas.ConcScript
import Verif.Lemmas.Concurrent
import Verif.Lemmas.DecodeHeap
import Verif.Lemmas.Double
import Verif.Lemmas.Float
import Verif.Lemmas.Heap
import Verif.Lemmas.HeapSerial
import Verif.Lemmas.Objects
import Verif.Lemmas.Objects2
import Verif.Lemmas.Objects3
import Verif.Lemmas.Objects4
import Verif.Lemmas.Objects5
import Verif.Lemmas.PushData
import Verif.Lemmas.RedeemObjects
import Verif.Lemmas.ScriptObjects
import Verif.Lemmas.ScriptObjects2
import Verif.Lemmas.ScriptObjects3
import Verif.Lemmas.SortSteps
import Verif.Lemmas.TxBytes
import Verif.Lemmas.TxCodec
import Verif.Lemmas.Typo
import Verif.Lemmas.VarInt
import Verif.Props.Address
import Verif.Props.AddressAll
import Verif.Props.AppendFails
import Verif.Props.Asm
import Verif.Props.Authorise
import Verif.Props.Balance
import Verif.Props.Bip276
import Verif.Props.Bip276Decode
import Verif.Props.Bip276Encode
import Verif.Props.Bip34
import Verif.Props.Chain
import Verif.Props.Channel
import Verif.Props.Cipher
import Verif.Props.Coinbase
import Verif.Props.CoinbaseNonce
import Verif.Props.ConcBuild
import Verif.Props.ConcCrash
import Verif.Props.ConcDecrypt
import Verif.Props.ConcLog
import Verif.Props.ConcMerkle
import Verif.Props.ConcMix
import Verif.Props.ConcMixSign
import Verif.Props.ConcMixTx
import Verif.Props.ConcMixWit
import Verif.Props.ConcRead
import Verif.Props.ConcRedeem
import Verif.Props.ConcRedeemAll
import Verif.Props.ConcRedeemPanic
import Verif.Props.ConcScript
import Verif.Props.ConcScriptRead
import Verif.Props.Concurrent
import Verif.Props.DecodeMemory
import Verif.Props.Difficulty
import Verif.Props.Encryption
import Verif.Props.Escrow
import Verif.Props.Failure
import Verif.Props.Fee
import Verif.Props.Flags
import Verif.Props.Handover
import Verif.Props.Hashrate
import Verif.Props.Header
import Verif.Props.HumanHash
import Verif.Props.Joint
import Verif.Props.Ledger
import Verif.Props.LockTime
import Verif.Props.Memory
import Verif.Props.MemoryBlock
import Verif.Props.Merkle
import Verif.Props.MerkleAny
import Verif.Props.MerkleList
import Verif.Props.Mining
import Verif.Props.NoPanic
import Verif.Props.Notary
import Verif.Props.Notes
import Verif.Props.Objects
import Verif.Props.Offer
import Verif.Props.Order
import Verif.Props.Output
import Verif.Props.OwnMemory
import Verif.Props.Pledge
import Verif.Props.Pool
import Verif.Props.Publish
import Verif.Props.PushData
import Verif.Props.Redeem
import Verif.Props.RedeemAddress
import Verif.Props.RedeemConc
import Verif.Props.RedeemConcSafe
import Verif.Props.RedeemMany
import Verif.Props.RedeemObjects
import Verif.Props.Request
import Verif.Props.Script
import Verif.Props.ScriptObjects
import Verif.Props.Secret
import Verif.Props.SigBind
import Verif.Props.SigHash
import Verif.Props.SigHashHuge
import Verif.Props.SignAuto
import Verif.Props.SignWork
import Verif.Props.Signers
import Verif.Props.Signing
import Verif.Props.Size
import Verif.Props.Spend
import Verif.Props.Spendable
import Verif.Props.Spv
import Verif.Props.Target
import Verif.Props.Text
import Verif.Props.Tx
import Verif.Props.TxBuild
import Verif.Props.TxIdChange
import Verif.Props.TxLayout
import Verif.Props.TxPanic
import Verif.Props.Typo
import Verif.Props.Unpaired
import Verif.Props.Utils
import Verif.Props.Versions
import Verif.Props.Work
import Verif.Tests.Hashes
import Verif.Tests.Vectors
