import Verif.Aco.AntSystem
import Verif.Aco.Colony
import Verif.Aco.ColonyProps
import Verif.Aco.Firefly
import Verif.Aco.Graph
import Verif.Aco.GraphProps
import Verif.Aco.Gravity
import Verif.Aco.NodeLife
import Verif.Aco.Schedules
import Verif.Aco.Swarm
import Verif.Aco.Trails
import Verif.Aco.Whale
import Verif.Common.Act
import Verif.Common.Arr
import Verif.Common.Bilinear
import Verif.Common.Loop
import Verif.Common.Loop2
import Verif.Common.Mat
import Verif.Common.View
import Verif.Graph.Cycles
import Verif.Layers.Attention
import Verif.Layers.BPTT
import Verif.Layers.BPTTMath
import Verif.Layers.BatchNorm
import Verif.Layers.BnLife
import Verif.Layers.BnSteps
import Verif.Layers.CompLife
import Verif.Layers.Conv
import Verif.Layers.ConvLife
import Verif.Layers.ConvPopup
import Verif.Layers.EdgePopup
import Verif.Layers.FC
import Verif.Layers.FactNoise
import Verif.Layers.FclLife
import Verif.Layers.GroupNorm
import Verif.Layers.GroupNormBack
import Verif.Layers.HeapLib
import Verif.Layers.L2Norm
import Verif.Layers.LRN
import Verif.Layers.LSTM
import Verif.Layers.LSTMInput
import Verif.Layers.LSTMPopup
import Verif.Layers.LSTMStack
import Verif.Layers.LSTMStackMath
import Verif.Layers.LstmLife
import Verif.Layers.ModelLife
import Verif.Layers.MultiHead
import Verif.Layers.NoisyFC
import Verif.Layers.PasteLife
import Verif.Layers.Pool
import Verif.Layers.ResetLife
import Verif.Layers.RmodelLife
import Verif.Layers.ScoreNorm
import Verif.Layers.Scores
import Verif.Layers.TConv
import Verif.Layers.TConvPopup
import Verif.Math.Activations
import Verif.Math.Clip
import Verif.Math.Losses
import Verif.Math.SampleSoftmax
import Verif.Math.Schedule
import Verif.Math.Softmax
import Verif.Math.Stats
import Verif.Math.TotalVariation
import Verif.Math.Vector
import Verif.Misc.Random
import Verif.Neat.Adjust
import Verif.Neat.Bytes
import Verif.Neat.Crossover
import Verif.Neat.Distance
import Verif.Neat.FeedForward
import Verif.Neat.FeedForwardProps
import Verif.Neat.Generation
import Verif.Neat.GenerationHist
import Verif.Neat.GenerationProps
import Verif.Neat.Genome
import Verif.Neat.GenomeFile
import Verif.Neat.GenomeLife
import Verif.Neat.History
import Verif.Neat.Species
import Verif.Neat.Threads
import Verif.Net.BatchDescent
import Verif.Net.BatchStep
import Verif.Net.Chain
import Verif.Net.ChainProps
import Verif.Net.ConvLayer
import Verif.Net.ConvNet
import Verif.Net.ConvOps
import Verif.Net.ConvPool
import Verif.Net.Flat
import Verif.Net.FlatEz
import Verif.Net.FlatModel
import Verif.Net.Network
import Verif.Net.NormFc
import Verif.Net.Rebuild
import Verif.Net.ResNet
import Verif.Net.Vae
import Verif.Net.VectorNode
import Verif.Net.Wiring
import Verif.Parse.Csv
import Verif.Parse.DqnFile
import Verif.Parse.ModelFile
import Verif.Parse.Text
import Verif.RL.Categorical
import Verif.RL.Consensus
import Verif.RL.ConsensusOrder
import Verif.RL.ConsensusProps
import Verif.RL.Ddpg
import Verif.RL.DdpgLife
import Verif.RL.Diversity
import Verif.RL.Dueling
import Verif.RL.EzAll
import Verif.RL.EzHeads
import Verif.RL.EzReward
import Verif.RL.IqTrain
import Verif.RL.Mcts
import Verif.RL.Noise
import Verif.RL.PolicyError
import Verif.RL.PolicyTrain
import Verif.RL.Quantile
import Verif.RL.RainbowTrain
import Verif.RL.RootNoise
import Verif.RL.SearchLife
import Verif.RL.SearchTree
import Verif.Replay.Buffer
import Verif.Replay.BufferProps
import Verif.Replay.CumTree
import Verif.Replay.CumTreeLemmas
import Verif.Replay.EfficientBuffer
import Verif.Replay.Heap
import Verif.Replay.HeapLemmas
import Verif.Replay.NStep
import Verif.Replay.RewardClasses
import Verif.Replay.RewardSample
import Verif.Replay.SampleProps
import Verif.Save.Cells
import Verif.Save.Cl
import Verif.Save.Ez
import Verif.Save.Fcl
import Verif.Save.Lstm
import Verif.Save.Model
import Verif.Save.Props
import Verif.Save.RModel
import Verif.Save.Training
import Verif.Save.Transf
import Verif.Sort.MergeSort
import Verif.Sort.MergeSortLemmas
import Verif.Sort.Props
import Verif.Sort.QuickSort
import Verif.Sort.QuickSortLemmas
import Verif.Train.Agc
import Verif.Train.ClipGrad
import Verif.Train.MultiCore
import Verif.Train.MultiCoreR
import Verif.Train.Optim
import Verif.Train.Regularize
import Verif.Train.SlowPaste
import Verif.Train.SumLstm
import Verif.Train.SumTree
import Verif.Train.Update
import Verif.Train.UpdateHistory
import Verif.Train.UpdateLstm
import Verif.Transf.AttentionCurve
import Verif.Transf.Cross
import Verif.Transf.CrossBack
import Verif.Transf.Decoder
import Verif.Transf.DecoderProps
import Verif.Transf.Encoder
import Verif.Transf.EncoderBack
import Verif.Transf.EncoderCycle
import Verif.Transf.EncoderFwd
import Verif.Transf.EncoderProps
import Verif.Transf.EncoderReset
import Verif.Transf.LayerLife
import Verif.Transf.MultiHeadBack
import Verif.Transf.Stack
import Verif.Transf.StackBack
import Verif.Transf.StackEnc
import Verif.Transf.TransfLife
import Verif.Transf.TransfUpdate
import Verif.Utils.Argmax
import Verif.Utils.Bytes
import Verif.Utils.Confusion
import Verif.Utils.Dictionary
import Verif.Utils.FileClaim
import Verif.Utils.Itoa
import Verif.Utils.Shuffle
import Verif.Utils.ShuffleLemmas
import Verif.Utils.ShuffleProps
