import Verif.Props.Training
import Verif.Props.Scoring
import Verif.Props.Mirror
import Verif.Props.Shelve
import Verif.Props.Pickle
import Verif.Props.SafePickle
import Verif.Props.Cdb
import Verif.Props.CdbAnyFile
import Verif.Props.CdbClassifier
import Verif.Props.CdbDamage
import Verif.Props.MessageId
import Verif.Props.MessageHeaders
import Verif.Props.Evidence
import Verif.Props.MessageText
import Verif.Props.Caches
import Verif.Props.Corpora
import Verif.Props.FileCorpus
import Verif.Props.FileMessages
import Verif.Props.Trainer
import Verif.Props.Net
import Verif.Props.Slurping
import Verif.Props.Strippers
import Verif.Props.TokenWords
import Verif.Props.TokenBody
import Verif.Props.TokenMessage
import Verif.Props.TokenHeaders
import Verif.Props.Mixed
import Verif.Props.ShelveKeys
import Verif.Props.Sections
import Verif.Props.OptionHeaders
import Verif.Props.OptionReceived
import Verif.Props.OptionBody
import Verif.Props.Rounding
import Verif.Props.Shared
import Verif.Props.Fancy
import Verif.Props.Ipv6
import Verif.Props.Multipart
import Verif.Props.TreeTokens
import Verif.Props.TreeTrip
import Verif.Props.TreeDelivered
import Verif.Props.TreeForm
import Verif.Props.TreeSame
import Verif.Props.TreeLines
import Verif.Props.TreeEnds
import Verif.Props.TreeAgain
import Verif.Props.TreeLocal
import Verif.Props.TreeExact
import Verif.Props.TreeHead
import Verif.Props.Learning
import Verif.Props.Bigrams
import Verif.Props.Mime
import Verif.Props.Printing
import Verif.Model.Letter
import Verif.Props.OwnHeaders
import Verif.Model.Desk
import Verif.Props.Desk
import Verif.Model.Fetch
import Verif.Props.Fetch
import Verif.Props.HeadersRead
import Verif.Model.Restart
import Verif.Props.Restart
import Verif.Props.Mistakes
import Verif.Props.WordCounts
import Verif.Props.Known
import Verif.Props.Trainers
import Verif.Props.CorpusText
import Verif.Props.Lifetime
import Verif.Props.UrlCaches
import Verif.Props.Requeue
import Verif.Props.Reach
import Verif.Props.Repeated
import Verif.Props.Crash
import Verif.Props.Filter
import Verif.Props.SlurpStripper
import Verif.Model.Fields
import Verif.Props.Folding
import Verif.Props.Reread
import Verif.Props.Marked
import Verif.Props.ExceptionHeader
import Verif.Model.TextMail
import Verif.Props.Rewritten
import Verif.Props.RawHeaders
import Verif.Props.Delivered
