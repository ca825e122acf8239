import Verif.Basic
import Verif.Props.Shape
import Verif.Props.Shape64
import Verif.Props.Tensor
import Verif.Props.Transform
import Verif.Props.Elementary
import Verif.Props.Matmul
import Verif.Props.React
import Verif.Props.Graph
import Verif.Props.Expr
import Verif.Props.Norm
import Verif.Props.Leaf
import Verif.Props.Registry
import Verif.Props.IO
import Verif.Props.Cache
import Verif.Props.Record
import Verif.Props.Dqn
import Verif.Props.Train
import Verif.Props.Rmsprop
import Verif.Props.Compound
import Verif.Props.Nets
import Verif.Props.Moves
import Verif.Props.Activation
import Verif.Props.Layer
import Verif.Props.Backprop
import Verif.Props.Fit
import Verif.Props.Labels
import Verif.Props.Query
import Verif.Props.Sharing
import Verif.Props.GdStep
import Verif.Props.Descent
import Verif.Props.ConstAxis
import Verif.Props.Rbm
import Verif.Props.DqnNet
import Verif.Props.Operators
import Verif.Props.Convolution
import Verif.Props.ConvValue
import Verif.Props.Gibbs
import Verif.Props.Dbn
import Verif.Props.Fault
import Verif.Props.Reshape
import Verif.Props.Life
import Verif.Props.Temp
import Verif.Props.Tighten
import Verif.Props.Tighten2
import Verif.Props.Tighten3
import Verif.Model.Stop
import Verif.Spec.Stop
import Verif.Lemmas.Stop
import Verif.Props.Stop
import Verif.Props.TensorExact
import Verif.Model.Mean
import Verif.Spec.Mean
import Verif.Props.Mean
import Verif.Model.Random
import Verif.Spec.Random
import Verif.Props.Random
import Verif.Props.Generator
import Verif.Props.Ask
import Verif.Props.AskMore
import Verif.Model.Clone
import Verif.Spec.Clone
import Verif.Lemmas.Clone
import Verif.Props.Clone
import Verif.Model.Meta
import Verif.Spec.Meta
import Verif.Props.Meta
import Verif.Props.MetaEx
import Verif.Model.Rpc
import Verif.Spec.Rpc
import Verif.Lemmas.Rpc
import Verif.Lemmas.RpcLog
import Verif.Props.Rpc
import Verif.Model.Notify
import Verif.Spec.Notify
import Verif.Props.Notify
import Verif.Model.Jacs
import Verif.Spec.Jacs
import Verif.Lemmas.Jacs
import Verif.Lemmas.JacsRun
import Verif.Lemmas.JacsSafe
import Verif.Props.Jacs
import Verif.Props.JacsBorn
import Verif.Spec.Stationary
import Verif.Lemmas.Markov
import Verif.Lemmas.Stationary
import Verif.Lemmas.StationaryRun
import Verif.Lemmas.FairDraws
import Verif.Props.Stationary
import Verif.Spec.Expected
import Verif.Lemmas.Expected
import Verif.Lemmas.Biased
import Verif.Props.Expected
import Verif.Props.Biased
import Verif.Spec.Regress
import Verif.Lemmas.Regress
import Verif.Props.Regress
import Verif.Model.Trainer
import Verif.Props.Trainer
