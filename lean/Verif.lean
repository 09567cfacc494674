import Verif.Accounting.Layer
import Verif.Accounting.Lemmas
import Verif.Accounting.Model
import Verif.Accounting.Props
import Verif.Accounting.Rep
import Verif.Accounting.Spec
import Verif.Accumulator.Lemmas
import Verif.Accumulator.Model
import Verif.Accumulator.Props
import Verif.Accumulator.Spec
import Verif.Accumulator.TxLemmas
import Verif.Address.Checksum
import Verif.Address.Detect
import Verif.Address.Kinds
import Verif.Address.Model
import Verif.Address.Props
import Verif.Address.Spec
import Verif.Address.Text
import Verif.Address.Words
import Verif.Base.Amount
import Verif.Base.AmountProps
import Verif.Base.BMap
import Verif.Base.BMapSum
import Verif.Base.History
import Verif.BlockStatus.Model
import Verif.BlockStatus.Props
import Verif.BlockTree.Lemmas
import Verif.BlockTree.Median
import Verif.BlockTree.Model
import Verif.BlockTree.Props
import Verif.BlockTree.Spec
import Verif.Bootstrap.Model
import Verif.Bootstrap.Node
import Verif.Bootstrap.Props
import Verif.Bootstrap.Spec
import Verif.Bootstrap.Stream
import Verif.Bootstrap.Write
import Verif.Cache.Base
import Verif.Cache.Check
import Verif.Cache.Desc
import Verif.Cache.Inv
import Verif.Cache.Kill
import Verif.Cache.Model
import Verif.Cache.Props
import Verif.Cache.Spec
import Verif.Cache.Track
import Verif.Chainstate.Candidates
import Verif.Chainstate.Commit
import Verif.Chainstate.Consistent
import Verif.Chainstate.History
import Verif.Chainstate.Invalidate
import Verif.Chainstate.Ledger
import Verif.Chainstate.Model
import Verif.Chainstate.Process
import Verif.Chainstate.Props
import Verif.Chainstate.Reorg
import Verif.Chainstate.Spec
import Verif.Chainstate.Tree
import Verif.Codec.Base
import Verif.Codec.Fits
import Verif.Codec.Laws
import Verif.Codec.Peek
import Verif.Codec.PeekLemmas
import Verif.Codec.Props
import Verif.Codec.Spec
import Verif.Codec.TypeLaws
import Verif.Codec.Types
import Verif.Codec.Vectors
import Verif.Compact.Model
import Verif.Compact.Props
import Verif.Conn.Ends
import Verif.Conn.Lemmas
import Verif.Conn.Life
import Verif.Conn.Model
import Verif.Conn.Props
import Verif.Conn.Steps
import Verif.Decimal.Lemmas
import Verif.Decimal.Model
import Verif.Decimal.Props
import Verif.Decimal.Spec
import Verif.Emission.Lemmas
import Verif.Emission.Model
import Verif.Emission.Props
import Verif.Emission.Spec
import Verif.Epoch.Example
import Verif.Epoch.Lemmas
import Verif.Epoch.Model
import Verif.Epoch.Props
import Verif.Epoch.Randomness
import Verif.Epoch.RandomnessLemmas
import Verif.Epoch.RandomnessProps
import Verif.Epoch.RandomnessSpec
import Verif.Epoch.Spec
import Verif.FeeRate.Lemmas
import Verif.FeeRate.Model
import Verif.FeeRate.Props
import Verif.Handshake.Model
import Verif.Handshake.Props
import Verif.Hd.Lemmas
import Verif.Hd.Model
import Verif.Hd.Props
import Verif.Hd.Spec
import Verif.Ids.Model
import Verif.Ids.Props
import Verif.Intent.Model
import Verif.Intent.Props
import Verif.KeyChain.Gap
import Verif.KeyChain.Inv
import Verif.KeyChain.Model
import Verif.KeyChain.Props
import Verif.KeyChain.Restore
import Verif.KeyChain.Spec
import Verif.Mempool.Add
import Verif.Mempool.Assemble
import Verif.Mempool.AssembleInv
import Verif.Mempool.AssembleLemmas
import Verif.Mempool.AssembleProps
import Verif.Mempool.Deps
import Verif.Mempool.Drop
import Verif.Mempool.Graph
import Verif.Mempool.Limits
import Verif.Mempool.Model
import Verif.Mempool.Props
import Verif.Mempool.Rel
import Verif.Mempool.Remove
import Verif.Mempool.Spec
import Verif.Orders.Invariant
import Verif.Orders.Lemmas
import Verif.Orders.Model
import Verif.Orders.Props
import Verif.Orders.Rep
import Verif.Orders.Spec
import Verif.Orphans.Model
import Verif.Orphans.Node
import Verif.Orphans.Order
import Verif.Orphans.Pool
import Verif.Orphans.Props
import Verif.Orphans.Spec
import Verif.PeerDb.Exact
import Verif.PeerDb.History
import Verif.PeerDb.Inv
import Verif.PeerDb.Model
import Verif.PeerDb.Props
import Verif.PeerDb.Select
import Verif.PeerDb.Spec
import Verif.PeerDb.Steps
import Verif.PeerDb.Table
import Verif.PeerDb.Tables
import Verif.PeerManager.Conns
import Verif.PeerManager.Effects
import Verif.PeerManager.Evict
import Verif.PeerManager.Evictions
import Verif.PeerManager.Heart
import Verif.PeerManager.Inv
import Verif.PeerManager.Model
import Verif.PeerManager.Props
import Verif.PeerManager.Seeks
import Verif.PeerManager.Steps
import Verif.Policy.CheckTx
import Verif.Policy.CheckTxProps
import Verif.Policy.CheckTxSpec
import Verif.Policy.FrozenChain
import Verif.Policy.FrozenExample
import Verif.Policy.FrozenLemmas
import Verif.Policy.FrozenProps
import Verif.Policy.FrozenSpec
import Verif.Policy.Node
import Verif.Policy.NodeExample
import Verif.Policy.NodeFaithful
import Verif.Policy.NodeLemmas
import Verif.Policy.NodeProps
import Verif.Policy.NodeRange
import Verif.Policy.NodeRangeExample
import Verif.Policy.Policy
import Verif.Policy.PolicyProps
import Verif.Policy.PolicySpec
import Verif.Pos.Lemmas
import Verif.Pos.Model
import Verif.Pos.Props
import Verif.Pos.Rep
import Verif.Pos.Shares
import Verif.Pos.Spec
import Verif.Relay.Lemmas
import Verif.Relay.Model
import Verif.Relay.Node
import Verif.Relay.Props
import Verif.Relay.Session
import Verif.Reward.Lemmas
import Verif.Reward.Model
import Verif.Reward.Props
import Verif.Reward.Spec
import Verif.Rolling.Lemmas
import Verif.Rolling.Model
import Verif.Rolling.Props
import Verif.Scanner.Blocks
import Verif.Scanner.Creates
import Verif.Scanner.Examples
import Verif.Scanner.Model
import Verif.Scanner.Props
import Verif.Scanner.Rel
import Verif.Scanner.Reorg
import Verif.Scanner.Spec
import Verif.Scanner.Steps
import Verif.Scanner.Tables
import Verif.Scanner.Unlock
import Verif.Script.AuthLemmas
import Verif.Script.AuthSpec
import Verif.Script.Lemmas
import Verif.Script.Model
import Verif.Script.MultisigProps
import Verif.Script.Props
import Verif.Script.Sig
import Verif.Script.Spec
import Verif.Script.Translate
import Verif.Select.Base
import Verif.Select.Bnb
import Verif.Select.BnbOpt
import Verif.Select.Knap
import Verif.Select.Model
import Verif.Select.Props
import Verif.Select.Spec
import Verif.Select.Srd
import Verif.Select.Whole
import Verif.Send.Base
import Verif.Send.Chain
import Verif.Send.Coins
import Verif.Send.Model
import Verif.Send.Pick
import Verif.Send.Props
import Verif.Send.Spec
import Verif.Send.Tokens
import Verif.Send.Whole
import Verif.Sighash.Lemmas
import Verif.Sighash.Model
import Verif.Sighash.Props
import Verif.Sighash.Spec
import Verif.Size.Model
import Verif.Size.PayAll
import Verif.Size.Props
import Verif.Size.Spec
import Verif.Size.Sweep
import Verif.Slots.Ledger
import Verif.Slots.Lemmas
import Verif.Slots.Model
import Verif.Slots.Props
import Verif.Slots.Spec
import Verif.Stake.Lemmas
import Verif.Stake.Model
import Verif.Stake.Produce
import Verif.Stake.ProduceExample
import Verif.Stake.ProduceProps
import Verif.Stake.ProduceSpec
import Verif.Stake.Props
import Verif.Stake.Spec
import Verif.Store.Lemmas
import Verif.Store.Model
import Verif.Store.Props
import Verif.Store.Spec
import Verif.Store.TxLemmas
import Verif.Sync.AnyPeer
import Verif.Sync.AnyPeerProps
import Verif.Sync.AnyPeerSpec
import Verif.Sync.Base
import Verif.Sync.Model
import Verif.Sync.Phases
import Verif.Sync.Props
import Verif.Sync.Query
import Verif.Sync.QueryLemmas
import Verif.Sync.QueryProps
import Verif.Sync.QuerySpec
import Verif.Sync.Session
import Verif.Sync.Spec
import Verif.Sync.Steps
import Verif.Target.Lemmas
import Verif.Target.Model
import Verif.Target.PowPanic
import Verif.Target.Props
import Verif.Target.Spec
import Verif.TokenInfo.Can
import Verif.TokenInfo.Lemmas
import Verif.TokenInfo.Model
import Verif.TokenInfo.Props
import Verif.TokenInfo.Spec
import Verif.Tokens.Lemmas
import Verif.Tokens.Model
import Verif.Tokens.Props
import Verif.Tokens.Rep
import Verif.Tokens.Spec
import Verif.TxOrphans.Fair
import Verif.TxOrphans.Live
import Verif.TxOrphans.Model
import Verif.TxOrphans.Ops
import Verif.TxOrphans.Pool
import Verif.TxOrphans.Props
import Verif.TxOrphans.Queue
import Verif.TxOrphans.Spec
import Verif.TxOrphans.Steps
import Verif.TxPool.Agree
import Verif.TxPool.Blocks
import Verif.TxPool.Cells
import Verif.TxPool.Conn
import Verif.TxPool.Examples
import Verif.TxPool.Kinds
import Verif.TxPool.Lists
import Verif.TxPool.Model
import Verif.TxPool.Order
import Verif.TxPool.Props
import Verif.TxPool.Reorg
import Verif.TxPool.Room
import Verif.TxPool.Sound
import Verif.TxPool.Steps
import Verif.Uint.Lemmas
import Verif.Uint.Model
import Verif.Uint.Props
import Verif.Uint.Spec
import Verif.Utxo.Lemmas
import Verif.Utxo.Model
import Verif.Utxo.Props
import Verif.Utxo.Spec
import Verif.Vault.Lemmas
import Verif.Vault.Model
import Verif.Vault.Props
import Verif.Vault.Spec
import Verif.Verifier.BlockLemmas
import Verif.Verifier.Chain
import Verif.Verifier.ChainLemmas
import Verif.Verifier.Check
import Verif.Verifier.LedgerLemmas
import Verif.Verifier.Model
import Verif.Verifier.NftLemmas
import Verif.Verifier.NonceLemmas
import Verif.Verifier.Props
import Verif.Verifier.RangeBack
import Verif.Verifier.RangeBlock
import Verif.Verifier.RangePos
import Verif.Verifier.RangeProps
import Verif.Verifier.RangeSteps
import Verif.Verifier.RangeTx
import Verif.Verifier.Replay
import Verif.Verifier.ReplayProps
import Verif.Verifier.RewardLemmas
import Verif.Verifier.Stage
import Verif.Verifier.TxLemmas
import Verif.Verifier.UndoCache
import Verif.Verifier.UndoLemmas
import Verif.Verifier.Value
import Verif.Verifier.ValueBlock
import Verif.Verifier.ValueMoves
import Verif.Verifier.ValueOrders
import Verif.Verifier.ValueProps
import Verif.Verifier.ValueRuns
import Verif.Verifier.ValueShift
import Verif.Verifier.ValueTx
import Verif.WalletSync.Groups
import Verif.WalletSync.Model
import Verif.WalletSync.Props
import Verif.WalletSync.Scan
import Verif.WalletSync.Single
import Verif.WalletSync.Spec
import Verif.WalletSync.Static
import Verif.WalletSync.Tree
import Verif.Wire.Laws
import Verif.Wire.Props
import Verif.Wire.Stream
import Verif.Wire.StreamLemmas
import Verif.Wire.Types
