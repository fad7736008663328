import Verif.IntervalSet.Props
import Verif.InputStream.Props
import Verif.TokenStream.Props
import Verif.TokenStream.CommonProps
import Verif.SemanticContext.Props
import Verif.ATN.TransitionProps
import Verif.Vocabulary.Props
import Verif.Deserializer.Decode
import Verif.Deserializer.Props
import Verif.Deserializer.Accepted
import Verif.Token.Props
import Verif.PredictionContext.Props
import Verif.ConfigSet.Props
import Verif.PredictionMode.Props
import Verif.DFA.Props
import Verif.Tree.Props
import Verif.Parser.Props
import Verif.Parser.HistoryProps
import Verif.LL1.Props
import Verif.ErrorStrategy.History
import Verif.ErrorStrategy.Props
import Verif.Lexer.Props
import Verif.Lexer.CacheProps
import Verif.Lexer.PathProps
import Verif.Lexer.OrderProps
import Verif.Lexer.LazyProps
import Verif.Lexer.Dead
import Verif.Lexer.Quiet
import Verif.Lexer.TotalProps
import Verif.ErrorListener.Props
import Verif.Prediction.InputProps
import Verif.Prediction.Offend
import Verif.Prediction.Props
import Verif.Prediction.AnswerProps
import Verif.Prediction.CacheProps
import Verif.Prediction.TotalProps
import Verif.Prediction.SemProps
import Verif.PredictionContext.LocalProps
import Verif.Prediction.RangeProps
import Verif.Gen.Props
import Verif.Gen.CompleteProps
import Verif.Gen.Csv
import Verif.Gen.CompleteExamples
import Verif.Concurrency.Example
import Verif.Concurrency.TraceProps
import Verif.Gen.ReturnProps
import Verif.Gen.PredictReturnProps
import Verif.Gen.TameReturnProps
import Verif.Gen.TwiceProps
import Verif.Lexer.SourceProps
import Verif.Gen.EndProps
import Verif.Gen.EndMoreProps
import Verif.Gen.XmlProps
import Verif.Gen.XmlText
import Verif.Gen.XmlOpen
import Verif.Gen.XmlClose
import Verif.Gen.XmlString
import Verif.Gen.XmlDocSpec
import Verif.Gen.XmlDoc
import Verif.Gen.StaleProps
import Verif.Gen.WeakProps
import Verif.DFA.SerializerProps
