#!/usr/bin/env python3
"""Source of /verif/properties.jsonl (one dict per property).  Run to regenerate."""
import json, os
P = []
def p(id, title, statement, quantifier, why, *anchors):
    P.append(dict(id=id, title=title, statement=statement, quantifier=quantifier,
                  why_tests_cant=why, anchors=list(anchors)))

B='sbclassifier/classifiers/basic.py'; S='sbclassifier/classifiers/storage.py'
M='sbclassifier/message.py'; T='sbclassifier/tokenizer.py'; X='sbclassifier/strippers.py'
CB='sbclassifier/corpora/base.py'; CC='sbclassifier/corpora/caches.py'; CF='sbclassifier/corpora/filesystem.py'
SL='sbclassifier/classifiers/slurping.py'; TR='sbclassifier/trainers.py'; IP='sbclassifier/iputils.py'
DN='sbclassifier/dnsutils.py'; SP='sbclassifier/safepickle.py'; CD='sbclassifier/cdb.py'
K='sbclassifier/classifiers/constants.py'

# ---- training -------------------------------------------------------------
p('C01','unlearn undoes learn',
  'Calling learn(ws, is_spam) and then unlearn(ws, is_spam) on a classifier returns it to exactly the word counts and message totals it had before, without raising, in unigram and in bigram mode, whatever order the token set is iterated in by the two calls.',
  'every classifier state whose records are non-negative and not both zero, every wordstream, both classes, both modes, every pair of set-iteration orders',
  'The claim is about all states and all wordstreams (including ones that share words with earlier training) and about hash-dependent set order, which a test run fixes.',
  B+':Classifier.learn', B+':Classifier.unlearn', B+':Classifier._add_msg', B+':Classifier._remove_msg')
p('C02','counts mean what they say',
  'After any history of learn and unlearn calls in which each unlearn names a message that is currently learned, nspam / nham equal the numbers of currently learned spam / ham messages, and the spamcount / hamcount the classifier holds for a word equals the number of currently learned spam / ham messages containing that word; no call raises.',
  'every finite history of learn/unlearn calls, every word, every set order',
  'Unbounded histories; tests check a handful of fixed ones.',
  B+':Classifier._add_msg', B+':Classifier._remove_msg', B+':WordInfo')
p('C03','training is order independent',
  'Two histories that leave the same multiset of (token set, class) messages learned give classifiers with identical totals and word counts, and therefore the same spamprob for every message.',
  'every pair of well-formed histories with the same remaining messages, every scored message',
  'Quantifies over all pairs of histories.',
  B+':Classifier.learn', B+':Classifier.unlearn', B+':Classifier.spamprob')
p('C04','training looks only at the set of tokens',
  'In unigram mode, learn and unlearn have the same effect for any two wordstreams with the same set of tokens: repetitions and order within a message are irrelevant, and so is whether the wordstream is a list or a one-shot iterator.',
  'every state, every pair of wordstreams with the same token set',
  'All pairs of streams; set iteration order depends on hash seeds.',
  B+':Classifier._add_msg', B+':Classifier._remove_msg')
p('C05','unlearn guard',
  'unlearn raises ValueError exactly when the total of that class is not positive, and then changes no count; in every history of learn/unlearn calls, valid or not, the totals and word counts never become negative.',
  'every history, including unlearning messages that were never learned',
  'Misuse histories are unbounded.',
  B+':Classifier._remove_msg')
p('C06','no dead records',
  'No history of learn/unlearn calls, valid or not, leaves the database holding a word whose spamcount and hamcount are both zero; unlearning the last occurrence of a word removes the word.',
  'every history of learn/unlearn calls, every word',
  'Unbounded histories.',
  B+':Classifier._remove_msg', B+':Classifier._wordinfodel')
p('C07','properly trained classifiers can always score',
  'If each unlearn named a currently learned message, every word count is at most the corresponding total and spamprob raises no exception on any message. (Not so after an unlearn of something never learned: scoring can then raise.)',
  'every well-formed history and every message scored afterwards',
  'The exception needs particular histories; absence for all histories is not testable.',
  B+':Classifier.probability', B+':Classifier.spamprob')
p('C08','the probability cache is invisible',
  'In any history of learn / unlearn / spamprob / probability calls, every value returned by probability or used by spamprob equals the one computed afresh from the current counts and totals, and a call fails with the cache exactly when it fails without it. (load() on an already used stored classifier does not keep this: it can leave stale probabilities.)',
  'every interleaving of training and scoring calls, every record queried',
  'Stale-cache bugs need a specific interleaving.',
  B+':Classifier.probability', B+':Classifier._add_msg', B+':Classifier._remove_msg', S+':PickleClassifier.load', S+':ShelveClassifier.load')
p('C09','scoring does not train',
  'spamprob changes neither totals nor the counts of any word, whether it returns or raises.',
  'every state, message, mode and evidence flag',
  'All inputs.',
  B+':Classifier.spamprob', B+':Classifier._getclues')
# ---- scoring ---------------------------------------------------------------
p('C10','word probability is a probability',
  'For a record with non-negative counts within the trained totals and not both zero, probability(record) is Robinson\'s (s*x + n*p)/(s + n) with s = 0.45, x = 0.5, and lies strictly between 0 and 1 in exact arithmetic; it stays within [0, 1] under any monotone rounding; it raises exactly when a count exceeds the (at least 1) total or both counts are zero.',
  'all counts and totals; all monotone roundings that fix the small integers',
  'Infinite domain and rounding behaviours.',
  B+':Classifier.probability')
p('C11','chi2Q is a survival function',
  'chi2Q(x2, v) raises ValueError exactly for odd v; for even v and x2 >= 0 its value is in [0, 1] under any monotone rounding; in exact arithmetic it equals exp(-x2/2) * sum_{i < v/2} (x2/2)^i / i! for v >= 2, is antitone in x2, monotone in v, and is 1 at x2 = 0.',
  'all x2 >= 0, all v, all monotone roundings',
  'Infinite numeric domain; the comment in the code records overshoot above 1.0 on some machines.',
  B+':chi2Q')
p('C12','spamprob is in [0, 1]',
  'Whenever spamprob returns, the probability is between 0 and 1 inclusive, whatever was trained, whatever the message, in unigram and bigram mode, and however intermediate results are rounded.',
  'all states, messages, modes and monotone roundings',
  'Unbounded numbers of clues and rounding behaviours.',
  B+':Classifier.spamprob', B+':chi2Q')
p('C13','underflow protection does not change the score',
  'The scaled products with frexp exponents give exactly the sums of logarithms: in exact arithmetic spamprob = (S - H + 1)/2 with S = 1 - chi2Q(-2 sum ln(1-p), 2n), H = 1 - chi2Q(-2 sum ln p, 2n), over the clue probabilities p.',
  'every list of clue probabilities strictly between 0 and 1, of any length',
  'Rescaling only triggers on long or extreme clue lists.',
  B+':Classifier.spamprob')
p('C14','score depends only on the token set',
  'In unigram mode spamprob returns the same result (or raises the same error) for any two messages with the same set of tokens, whatever the order, repetition or iteration order of the set.',
  'every state and every pair of messages with equal token sets, every pair of set orders',
  'Hash order cannot be enumerated by tests.',
  B+':Classifier._getclues', B+':Classifier.spamprob')
p('C15','no evidence means 0.5; neutral tokens are inert',
  'A message without any clue token scores exactly 0.5, and adding tokens the classifier has never seen (or tokens within 0.1 of 0.5) to a message does not change its score.',
  'every state, message, and set of added neutral tokens',
  'All states and messages.',
  B+':Classifier._worddistanceget', B+':Classifier._getclues', B+':Classifier.spamprob')
p('C16','spammier evidence never lowers the score',
  'In exact arithmetic, if the clue probabilities of one message are pointwise at least those of another, its score is at least the other\'s.',
  'all pairs of pointwise ordered clue lists of any common length',
  'Infinite numeric domain.',
  B+':Classifier.spamprob', B+':chi2Q')
p('C17','ham and spam are treated symmetrically',
  'Training the mirror image (every spam as ham and vice versa) turns a score x into 1 - x, in unigram mode and exact arithmetic, whenever the message has at most 150 clue tokens; beyond 150 clues ties in strength are broken in favour of spam clues, so the symmetry fails there.',
  'every pair of mirrored states and every message with at most 150 clues',
  'Relates two executions over all states.',
  B+':Classifier.probability', B+':Classifier.spamprob', B+':Classifier._getclues')
p('C18','clue selection',
  'The clues used are distinct tokens of the message, at most 150, each at distance at least 0.1 from 0.5; a sufficiently strong token is left out only if 150 clues at least as strong are used; and if at most 150 qualify all of them are used.',
  'every state and message (unigram mode)',
  'Needs arbitrarily large messages and tie patterns.',
  B+':Classifier._getclues')
p('C19','evidence explains the score',
  'spamprob(ws, evidence=True) returns the same probability as evidence=False, with an evidence list that starts with *H* and *S*, whose remaining entries are exactly the clues used, in non-decreasing order of probability, and whose S and H give the score as (S - H + 1)/2 when there are clues.',
  'every state and message',
  'All states and messages.',
  B+':Classifier.spamprob')
# ---- bigrams ---------------------------------------------------------------
p('C20','bigram tiling never counts a token twice',
  'In bigram mode no position of the message contributes to two of the clues used, every rejected candidate overlaps an accepted clue that is at least as strong, and at most 150 clues are used.',
  'every state and message in bigram mode',
  'All messages and strength patterns.',
  B+':Classifier._getclues')
p('C21','bigram training covers the whole message',
  'learn in bigram mode on a list trains on every token and every adjacent pair, as its documentation says (a b c -> a b "a b" c "b c"). FALSE for the code: the last token is never trained, and a one-token message trains nothing; what is proved is exactly which tokens are trained.',
  'every list of tokens',
  'The loss occurs on every message, but the exact trained set must be stated for all lengths.',
  B+':Classifier._enhance_wordstream', B+':Classifier.learn')
p('C22','lists and iterators train alike',
  'learn on a one-shot iterator has the same effect as learn on the list of its items. True in unigram mode; FALSE in bigram mode, where the iterator is consumed from three places; what is proved is the exact set of tokens trained.',
  'every token sequence',
  'Interleaved iterator consumption for all lengths.',
  B+':Classifier._enhance_wordstream')
# ---- pickle -----------------------------------------------------------------
p('C23','pickle round trip',
  'A PickleClassifier that stores its state and another one that is constructed on the same file have the same totals and word counts and give the same score for every message.',
  'every state, every message',
  'All states.',
  S+':PickleClassifier.load', S+':PickleClassifier.store', B+':Classifier.__getstate__', B+':Classifier.__setstate__')
p('C24','store is crash safe',
  'If the process dies at any point during store(), the classifier file holds either the complete old or the complete new contents. True when the temporary directory is on the same filesystem (rename); FALSE when it is not, because the move is then a copy.',
  'every crash point of pickle_write, all old and new contents',
  'Crash points cannot be scheduled by unit tests.',
  SP+':pickle_write')
p('C25','concurrent stores and loads never tear',
  'For any number of concurrent pickle_read and pickle_write calls on one file under any interleaving, each completed read returns the complete initial value or a complete value some write call stored, and when nobody holds the lock the file is complete, as long as the move itself does not fail halfway (a cross-filesystem move that fails, e.g. because the disk is full, leaves a torn file with the lock free).',
  'every number of processes and every schedule',
  'Schedules.',
  SP+':pickle_read', SP+':pickle_write')
p('C26','an existing database is never silently forgotten',
  'Constructing a PickleClassifier on a file holding a stored classifier yields that classifier or raises. FALSE: any failure, including a lock held by another process or an unknown version, silently yields an empty classifier, and the next store overwrites the data; proved: load never raises on read errors and exactly when it starts empty.',
  'every outcome of reading the file',
  'Needs lock contention or damaged files.',
  S+':PickleClassifier.load', SP+':pickle_read')
p('C27','a pickled classifier still works',
  'Pickling and unpickling a Classifier yields an object with the same counts that supports every operation. FALSE: the bigram flag is not part of the pickled state, so learn, unlearn and spamprob raise AttributeError on the copy; proved: the counts survive.',
  'every classifier state and wordstream',
  'All states.',
  B+':Classifier.__getstate__', B+':Classifier.__setstate__')
# ---- shelve -----------------------------------------------------------------
p('C28','ShelveClassifier is a Classifier',
  'For any history of learn / unlearn / spamprob / store calls on a ShelveClassifier whose tokens avoid the reserved key "saved state", every result, error, total and word count is the same as for the in-memory Classifier.',
  'every history, every message, every set order',
  'The write-through singleton optimisation, the caches and the pending sets interact over unbounded histories.',
  S+':ShelveClassifier._wordinfoget', S+':ShelveClassifier._wordinfoset', S+':ShelveClassifier._wordinfodel', S+':ShelveClassifier.store')
p('C29','shelve store and reopen',
  'After store(), reopening the database gives a classifier with the same totals and word counts; store() never raises and can be interleaved with training arbitrarily often.',
  'every history of training, scoring, store and reopen',
  'Unbounded histories.',
  S+':ShelveClassifier.store', S+':ShelveClassifier.load')
p('C30','unsaved shelve training',
  'If the process stops without store(), reopening gives a usable database: no word is counted in more messages than were trained (more than one, if the first message was only partly written), so every message can be scored. Holds at every crash point of histories without unlearn; FALSE with unlearn, after which scoring can raise because totals are written immediately but word counts are not. Exactly: the file always opens; between two calls it has the totals of all training so far, and for a word what was right when store() was last called or the word was last counted in a single message; during a call each key is as before or as after it; a message can be scored from the file exactly if no token of it is counted more often in a class than messages are (or than once), so always if the unlearns were proper and came before the last store().',
  'every history and every crash point between two database writes',
  'Crash points.',
  S+':ShelveClassifier._post_training', S+':ShelveClassifier._wordinfoset', S+':ShelveClassifier.store')
p('C31','every token can be trained',
  'learn accepts any token on a ShelveClassifier. FALSE for the token "saved state", which collides with the key of the totals: it is lost the first time and makes learn raise the second time.',
  'every token',
  'Needs the one colliding token.',
  S+':STATE_KEY', S+':ShelveClassifier._wordinfoget')
# ---- cdb --------------------------------------------------------------------
p('C32','cdb iteration round trip',
  'Iterating a constant database made from a list of ASCII key/value strings yields exactly those pairs (as bytes), in order, duplicates included. FALSE for non-ASCII strings, whose lengths are written in characters rather than bytes.',
  'every list of items fitting in 32-bit offsets',
  'All lists, all lengths.',
  CD+':cdb_make', CD+':Cdb.__iter__')
p('C33','cdb lookup',
  'Looking up a key in a made database returns the value of the first item with that key and raises KeyError for an absent key. With str keys on Python 3 it ALWAYS raises KeyError, because a str never equals the bytes in the file; proved: that, and that the probing itself (with keys compared by content) is correct for all ASCII items.',
  'every list of items and every key, any hash collisions',
  'Collision and wrap-around patterns in open addressing.',
  CD+':Cdb.findnext', CD+':cdb_make', CD+':cdb_hash')
p('C34','CDBClassifier round trip',
  'A CDBClassifier stored and loaded again has the same totals and word counts. FALSE: the classifier raises NameError on store, and even with a working cdb module every word comes back with ham and spam counts exchanged (totals are right). Also proved for any file, whatever wrote it: the constructor returns if and only if the file has two numbers for the totals and one or two for each word, and then holds exactly these; otherwise it raises KeyError, ValueError or TypeError.',
  'every state',
  'All states; the tests are skipped without the cdb module.',
  S+':CDBClassifier.load', S+':CDBClassifier.store')
# ---- message ----------------------------------------------------------------
p('C35','a message id is write-once',
  'Once a message has a non-empty id, no sequence of set_id / set_id_from_payload calls changes it; a reserved or non-string id is never stored; every rejected call raises and leaves the id alone.',
  'every sequence of calls with any arguments',
  'Unbounded call sequences.',
  M+':Message.set_id', M+':Message.set_id_from_payload', M+':Message.id')
p('C36','classification thresholds',
  'set_classification(prob) classifies every float as ham iff prob < 0.2, spam iff prob > 0.9 and unsure otherwise, monotonically in prob; it agrees with the slurping classifier\'s notion of unsure except exactly at the two cutoffs and for NaN.',
  'every float',
  'Boundary values and the whole line.',
  M+':Message.set_classification', SL+':is_unsure', K+':HAM_CUTOFF', K+':SPAM_CUTOFF')
p('C37','the classification header is trustworthy',
  'After add_sb_headers(prob, clues) the message\'s classification header reads the classification of prob. Holds if the message had no such header (for example after remove_sb_headers); FALSE for a message that arrives with its own, whose value then wins.',
  'every message and probability',
  'Adversarial input headers.',
  M+':Message.add_sb_headers', M+':Message.remove_sb_headers')
p('C38','remove_sb_headers removes exactly the SpamBayes headers',
  'After remove_sb_headers no SpamBayes header is left (in any letter case, any multiplicity), and every other header except a notated Subject/To keeps its name, value and position.',
  'every header list and flag combination',
  'All header lists.',
  M+':Message.remove_sb_headers', M+':Message.remove_notations')
p('C39','headers added are removed again',
  'add_sb_headers followed by remove_sb_headers restores the original headers of a message without SpamBayes headers. Holds exactly when the message has no SpamBayes headers, each header that gets a notation exists as text without raw bytes, and each that gets none carries no notation of its own (and no raw bytes); FALSE when To or Subject is missing, because the header created for the notation has no trailing comma and stays.',
  'every message, probability and option combination',
  'All combinations.',
  M+':Message.add_sb_headers', M+':Message.add_notations', M+':Message.remove_sb_headers')
p('C40','notation removal flags',
  'remove_sb_headers(remove_to_notations=t, remove_subject_notations=s) removes a To notation iff t and a Subject notation iff s. FALSE: the two flags are passed on in the wrong order; proved: the exact effect, and that it is right when the flags are equal.',
  'every message and flag combination',
  'Tests only use the defaults.',
  M+':Message.remove_sb_headers', M+':Message.remove_notations')
p('C41','evidence header',
  'The evidence header lists exactly the clues that are *H*, *S* or at least as extreme as the cutoff, in order; undoing the line wrapping gives the entries joined by "; ".',
  'every clue list and cutoff',
  'All clue lists.',
  M+':Message.add_sb_headers')
p('C42','evidence header lines stay below 78 columns',
  'No line of the evidence header exceeds 78 columns unless a single entry is that long. FALSE: separators are not counted; proved: a bound on how much longer a line can get.',
  'every clue list',
  'Needs particular entry lengths.',
  M+':Message.add_sb_headers')
p('C43','force_crlf',
  'force_crlf output has every CR followed by LF and every LF preceded by CR, keeps the lines (split at CRLF, CR or LF) unchanged and is idempotent.',
  'every string',
  'All strings.',
  M+':force_crlf')
p('C44','insert_exception_header keeps the message',
  'insert_exception_header on a message with a blank line returns text whose body (after the first blank line) is exactly the original body and whose header block is the original one followed by the exception header (and the id header if given). For a message without blank line ending in a newline the added headers FALL INTO the body, and for a message whose header block is empty they do too.',
  'every message text, traceback text and newline-free id',
  'All texts.',
  M+':insert_exception_header')
# ---- corpora ----------------------------------------------------------------
p('C45','a bounded cache stays bounded',
  'A NaiveCache with max_size n never holds more than n entries after any sequence of put/pop calls.',
  'every n and every call sequence',
  'Unbounded sequences.',
  CC+':NaiveCache.put', CC+':NaiveCache.pop')
p('C46','cache contents are first-in first-out',
  'As long as every put uses a key not in the cache, the cache holds exactly the most recent max_size puts that were not popped, in order of insertion, with the right values; an unbounded cache behaves as a dictionary for every call sequence. FALSE in general: putting a key again can evict that very key or evict early.',
  'every call sequence',
  'Unbounded sequences; the failure needs a repeated key.',
  CC+':NaiveCache.put', CC+':NaiveCache.pop', CC+':NaiveCache.get')
p('C47','corpus respects the cache it is given',
  'Corpus(cache) stores its messages in the given cache (so a size bound is respected). FALSE for an empty cache, which is falsy and silently replaced by an unbounded one.',
  'every cache and every sequence of add/remove calls',
  'Needs more messages than the bound.',
  CB+':Corpus.__init__')
p('C48','corpus observers see every change exactly once',
  'Each add_message / remove_message with emit_signal=True notifies each observer connected to that corpus exactly once, in call order, with the message, and with emit_signal=False nobody; other corpora\'s observers are not notified; get returns what was last added under the key and not removed.',
  'every sequence of calls on any number of corpora',
  'Unbounded sequences.',
  CB+':Corpus.add_message', CB+':Corpus.remove_message')
p('C49','messages added to a file corpus are on disk',
  'After add_message on a FileCorpus there is a file named by the message id holding the message, until the message is removed. FALSE in two ways: opened on a directory without matching files the corpus never writes anything, and adding more than cache_size messages deletes the oldest files. Proved for corpora that start non-empty and stay within cache_size.',
  'every directory, filter, cache size and call sequence',
  'Needs an empty directory, or hundreds of messages.',
  CF+':FileCorpus.__init__', CC+':FileCache.put', CC+':FileCache.pop')
p('C50','length of a file corpus',
  'len(corpus) is the number of messages in it. FALSE after any change: the count is taken once at construction; proved: right at construction, constant afterwards.',
  'every call sequence',
  'Unbounded sequences.',
  CC+':FileCache.__len__', CC+':FileCache.put', CC+':FileCache.pop')
p('C51','trainer follows the corpus',
  'With a Trainer attached, adding a message trains it and removing it untrains it, so the classifier always reflects the corpus. FALSE: removal trains the message again (both signals are connected to train), and with this package\'s Message class every notification raises AttributeError; proved: what each event does to the totals and counts.',
  'every sequence of corpus changes',
  'Unbounded sequences.',
  TR+':Trainer.__init__', TR+':Trainer.train', TR+':Trainer.untrain')
p('C52','expiry removes exactly the old messages',
  'remove_expired_messages removes exactly the messages older than the expiry age, and does nothing before the next expiry is due. FALSE: on a corpus with any message it raises AttributeError (Message has no creation time) or, for messages that do, TypeError at the first expired one; proved: exact behaviour, including the early return.',
  'every corpus, clock and age',
  'Clock dependent; the test is skipped as flaky.',
  CF+':ExpiryFileCorpus.remove_expired_messages')
# ---- tokenizer / strippers ----------------------------------------------------
p('C53','strippers lose nothing but the marked sections',
  'Stripper.analyze terminates for every text when start matches are non-empty, and the returned text is the input with a sequence of disjoint sections removed, each running from a start match to the end of the next end match; an unterminated section is kept; text without start match is unchanged.',
  'every text and all matchers meeting the documented contract',
  'All texts and matchers; termination.',
  X+':Stripper.analyze')
p('C54','which words become tokens',
  'tokenize_text emits each whitespace-separated word of length 3..12 verbatim, in order, and nothing for shorter words; longer words give one summary token. FALSE for two kinds of bytes words: 13..39 bytes with a dot, and long ones with high-bit bytes, which raise TypeError; proved: exact output and exactly when it raises, for bytes and for str.',
  'every text',
  'All texts.',
  T+':tokenize_word', T+':Tokenizer.tokenize_text')
p('C55','every body can be tokenized',
  'Tokenizing a decodable text part never raises. FALSE: any numeric character entity, &nbsp;, <p>, <br> or other tag makes it raise TypeError (str replacement on bytes), and so does a line like "Begin forwarded message:", which is taken for uuencode; proved: exactly when a body can be tokenized, and its exact tokens.',
  'every text',
  'Depends on message content.',
  T+':Tokenizer.tokenize_body', T+':numeric_entity_replacer')
p('C56','header line tokens',
  'For each header name (case-sensitive) whose lower-case form is in SAFE_HEADERS, exactly one token header:NAME:COUNT with the number of its lines is emitted, and none for other names; no noheader token is ever produced by default options, nor for absent headers under any options.',
  'every header list and option setting',
  'All header lists.',
  T+':Tokenizer.tokenize_headers')
p('C57','host and address breakdown',
  'breakdown_host yields exactly the suffixes of the name at label boundaries, shortest first, ending with the name itself; breakdown_ipaddr the prefixes; top_two the last two labels.',
  'every string',
  'All strings.',
  T+':breakdown_host', T+':breakdown_ipaddr', T+':top_two')
p('C58','base64 repair terminates and keeps the tail',
  'try_to_repair_damaged_base64 always terminates; it treats as base64 exactly the maximal run of initial lines of base64 form up to and including the first padded line, and the rest of the text is kept verbatim (when decoding fails); when decoding succeeds on a non-empty prefix it raises TypeError (bytes + str).',
  'every text and every decoder outcome',
  'All texts.',
  T+':try_to_repair_damaged_base64')
p('C59','IP clues',
  'gen_dotted_quad_clues yields the four enclosing networks of length 8, 16, 24, 32: two IPv4 addresses share the clue of length n iff they agree on the first n bits. The prefix_lengths argument of subnets is ignored.',
  'every pair of IPv4 addresses and prefix string',
  '2^64 pairs.',
  IP+':gen_dotted_quad_clues', IP+':subnets')
p('C60','DNS lookups leave the socket timeout alone',
  'A timed call restores the process-wide default socket timeout on every exit and turns a timeout into (). Holds for calls that do not overlap; FALSE for overlapping threads, which can leave the timeout changed for good.',
  'every outcome of the wrapped function; every interleaving of two calls',
  'Schedules and timeouts.',
  DN+':timed', DN+':dns_lookup', DN+':reverse_dns_lookup')
p('C61','memoize is transparent',
  'For a deterministic function, memoized calls return the same results as direct calls, the function is evaluated at most once per argument tuple for successful calls, and failures are not cached.',
  'every function and call sequence',
  'Unbounded sequences.',
  DN+':memoize')
p('C62','SlurpingClassifier is a usable classifier',
  'SlurpingClassifier.learn/unlearn/spamprob behave like Classifier when no URL is to be fetched. FALSE: all three raise TypeError (all() with three arguments; an unknown keyword in the cache set-up) and no training ever happens; proved: they always raise and change no count.',
  'every history',
  'Unit tests do not cover the class.',
  SL+':SlurpingClassifier.spamprob', SL+':SlurpingClassifier.learn', SL+':SlurpingClassifier.setup')

p('C63','copies of a message keep its headers',
  'A message that is copied or pickled and restored has the attributes and headers it had before. FALSE: __getstate__ keeps only id, classification and training state; those survive exactly, every header is lost and the copy is unusable as an email.',
  'every message',
  'All messages; the defect is in what is not in the state.',
  M+':Message.__getstate__', M+':Message.__setstate__', M+':Message.__copy__')
p('C64','current_sb_headers is a faithful backup',
  'The dictionary returned by current_sb_headers holds, for every SpamBayes header name present, the value of its first occurrence, so that removing all of them and writing the dictionary back restores every SpamBayes header that occurred once.',
  'every header list',
  'All header lists.',
  M+':Message.current_sb_headers', M+':Message.remove_sb_headers')
p('C65','score and level headers',
  'With the options on, the score header is the probability with the wanted number of digits, followed by its logarithm (or that of its complement) exactly when asked for and the probability is within 0.005 of an end but not at it; the level header has as many stars as the integer part of ten times the probability, hence between 0 and 10 and never fewer for a higher probability; a NaN or infinite product raises.',
  'every float and option setting',
  'All floats.',
  M+':Message.add_sb_headers')
p('C66','add_sb_headers writes only what it was asked for',
  'Every header that the options do not ask for, and every other header of the message, has exactly the entries it had before, in the same order, and so have the id and the training state; this holds also when add_sb_headers raises half way.',
  'every message, probability, clue list and option setting',
  'All messages and option combinations.',
  M+':Message.add_sb_headers', M+':Message.add_notations')

p('C67','a message taken from a corpus can be removed from it',
  'remove_message(corpus[key]) removes the message from the corpus. FALSE for file corpora: a message that this corpus object has not added itself is read from its file without an id, and removing it raises TypeError and leaves the file; the messages of values() do carry their names as ids and can be removed.',
  'every directory and call sequence',
  'Needs a corpus opened on existing files.',
  CC+':FileCache.__getitem__', CC+':FileCache.values', CB+':Corpus.remove_message', 'sbclassifier/message.py:from_path')
p('C68','a file corpus stays in its directory',
  'Whatever messages are added or removed, a FileCorpus creates, changes and deletes only entries of its own directory. FALSE for ids with slashes or dots: a message with the id "../x" is written beside the directory; proved for proper file names, and for all names that no directory is made or removed.',
  'every sequence of messages with any ids (ids can come from mail headers)',
  'Depends on hostile ids; all ids are to be considered.',
  CC+':FileCache.put', CC+':FileCache.pop')
p('C69','a corpus is a consistent mapping',
  'For a corpus in memory keys(), values(), len(), in, get and [] always agree, with no duplicate key, and values() lists the messages in the order of keys(). FALSE for items(), which raises AttributeError for every corpus, and for values() of a corpus of files, which raises ValueError when it comes to a file with one of the two names that set_id refuses (such a file is a key of the corpus, can be looked up, and can be made by add_message); proved: everything else, and what values() gives up to that file.',
  'every reachable state',
  'All states.',
  CB+':Corpus.keys', CB+':Corpus.values', CB+':Corpus.items', CB+':Corpus.__contains__')
p('C70','training is all or nothing',
  'learn and unlearn either complete or leave the classifier as it was. FALSE when the wordstream raises while it is consumed (tokenizers do): the message total has then been changed and no word count has, so that counts and totals disagree for good; proved: the exact effect, for both calls.',
  'every classifier state, exception and class',
  'Needs an exception at the right moment; all states.',
  B+':Classifier._add_msg', B+':Classifier._remove_msg', TR+':Trainer.train')

p('C71','NNTP-Posting-Host mining',
  'With X_MINE_NNTP_HEADERS on, mine_nntp gives clues for every message. FALSE: it raises TypeError when there is no such header, when the header is an IP address and when the name resolves, and lets look-up failures through; it gives clues only when the look-up of the first header times out. Proved: the exact outcome for every header list and look-up result, and that the socket timeout is always restored.',
  'every header list and every outcome of the look-up',
  'Depends on the network; all outcomes.',
  T+':mine_nntp', T+':clues_from_ipaddress', T+':clues_from_domainname')
p('C72','base_url reduces a URL to its domain',
  'base_url of a URL without protocol depends only on the host: hosts of at most two labels are kept, longer ones are cut to their last two labels, or three if the last label has fewer than three characters.',
  'every URL',
  'All URLs.',
  SL+':base_url')

p('C73','stripping is complete',
  'After a stripper has run, running it again changes nothing. FALSE: what is left on both sides of a removed comment can form a new one; proved: it holds for URLs (no URL is left), and repeating any stripper at most as often as the text has bytes reaches a text it leaves alone.',
  'every text',
  'All texts; counterexamples are adversarial.',
  X+':Stripper.analyze', X+':URLStripper', X+':CommentStripper')
p('C74','trailing punctuation of URLs',
  'Punctuation after a URL in running text does not change the tokens of the URL (the comment in URLStripper.tokenize says so). FALSE: the result of rstrip is discarded; proved: the exact tokens of every URL, and that a trailing . : ? or / adds exactly the token url: while a trailing ! becomes part of the last piece.',
  'every URL',
  'All URLs.',
  X+':URLStripper.tokenize')

p('C75','every message can be tokenized',
  'tokenize(message) yields its tokens without raising. FALSE: a subject with a word of more than 12 characters ("Congratulations!") or an encoded word, raw 8-bit bytes in To, Cc, X-Mailer or Message-Id, and most HTML bodies raise TypeError; proved: exactly which messages can be tokenized.',
  'every message (as seen through the email package)',
  'Depends on message content; all messages.',
  T+':Tokenizer.__call__', T+':Tokenizer.tokenize_headers', T+':Tokenizer.tokenize_body')
p('C76','attachment file names',
  'The pieces of the name of an attachment are tokens ("filename:fname piece:..."). FALSE: crack_filename raises for every str (bytes pattern), the exception is caught, and the tokens are always the whole name and filename:<bogus>.',
  'every attachment name',
  'All names.',
  X+':crack_content_xyz', X+':crack_filename')
p('C77','tokens are bytes',
  'Whatever the tokenizer produces, tokenize() yields bytes: bytes tokens as they are and str tokens in UTF-8, in order and one for one, so that different str tokens stay different; a token with a lone surrogate raises UnicodeEncodeError after the tokens before it.',
  'every token stream',
  'All strings, including surrogates.',
  T+':Tokenizer.__call__', T+':convert_to_bytes')
p('C78','the order of the text parts does not matter',
  'textparts() returns a set, so the parts of a message are tokenized in an unspecified order; whether the message can be tokenized and the multiset of its tokens are independent of that order (the sequence is not).',
  'every message and every order',
  'Set order of objects depends on addresses.',
  T+':Tokenizer.tokenize_body', T+':textparts')
p('C79','the host of the Message-Id',
  'The token is message-id:@HOST if the Message-Id begins with <LOCAL@HOST> after white space, where LOCAL is all up to the first @ and HOST all up to the first > after it; otherwise it is message-id:invalid, also when the header is missing.',
  'every Message-Id header',
  'All strings.',
  T+':Tokenizer.tokenize_headers', T+':message_id_re')
p('C80','virus clues',
  'The virus: tokens of a text part are exactly its clues (script and iframe tags, src=cid:, height=0 and width=0), from left to right without overlap, each token showing the text of the clue; there is one iff the text has a clue.',
  'every text',
  'All texts.',
  T+':virus_re', T+':find_html_virus_clues')
p('C81','subject, address, recipient and mailer tokens',
  'The tokens of a plain subject are its words of 3 to 12 characters, in their own case, and its punctuation runs; those of an address header are the lower-case names, the lower-case sides of the @ and the rounded number of addresses without names; the number of recipients is the number of commas plus the number of lines, rounded to a power of two; the header tokens come in a fixed order.',
  'every header',
  'All header values.',
  T+':Tokenizer.tokenize_headers', T+':tokenize_word')

p('C82','scoring bytes tokens with bigrams',
  'Scoring the tokens of the tokenizer, which are bytes, never raises TypeError, with or without bigrams. FALSE with bigrams: a bigram is a str, and if a str and bytes have the same probability the sort of the clues compares them; after one message has been learned by a new bigram classifier, scoring any message with its first two tokens side by side raises; proved: TypeError exactly if there is such a tie, whatever the sorting algorithm, and no change otherwise.',
  'every valid history, every message, every comparison sort',
  'Whether tied items get compared depends on their places and on the algorithm.',
  B+':Classifier._get_clues', B+':BIGRAM_FORMAT')

p('C83','a ShelveClassifier learns the tokens of the tokenizer',
  'A ShelveClassifier learns and scores messages whose tokens are bytes, as the tokenizer yields them. FALSE: a shelf calls key.encode, which bytes do not have; in every state learning, unlearning and scoring such a message raise AttributeError, with the totals already changed; proved also: one bytes token or lone surrogate in a message is enough for an exception, and with str tokens without surrogates the encoded keys are faithful and the outcomes are those of the in-memory classifier.',
  'every file, every history of calls (failed ones included), every message',
  'All histories and all texts.',
  S+':ShelveClassifier._wordinfoget', S+':ShelveClassifier._wordinfoset')

p('C84','what the strippers take out',
  'The strippers for comments, styles and noframes return the text without its sections, where a section begins with the first opening marker and ends with the first closing marker after it (markers described as words, without regular expressions), unchanged from an unterminated section on, and yield no tokens; the one for URLs removes every URL, up to the first character that cannot be in one, and yields its protocol and its pieces. Every text has exactly one such result.',
  'every text',
  'All texts.',
  X+':Stripper.analyze', X+':URLStripper', X+':StyleStripper', X+':CommentStripper', X+':NoframesStripper')

p('C85','tokens of the header lines',
  'Called with basic_header_tokenize, the tokenizer turns the words of every header line into tokens LINE:WORD, except for the lines named received, date and x-...; with basic_header_tokenize_only these are the only header tokens. FALSE: Tokenizer.__call__ does not hand its arguments on, so they have no effect; and BASIC_HEADER_SKIP is a single pattern, so that tokenize_headers called directly skips no line of a real message. Proved: the exact tokens and exceptions of tokenize_headers with both arguments.',
  'every message and all options',
  'All header lines.',
  T+':Tokenizer.__call__', T+':Tokenizer.tokenize_headers', T+':BASIC_HEADER_SKIP')
p('C86','the Habeas mark',
  'With X_SEARCH_FOR_HABEAS_HEADERS there is a token NAME:valid or NAME:invalid for each header of the mark that is present, in the order 1 to 9, valid iff it has exactly the prescribed text; with X_REDUCE_HABEAS_HEADERS there is one token instead: invalid if some header present has another text, valid if all nine are right, and none otherwise.',
  'every message',
  'All combinations of headers and values.',
  T+':Tokenizer.tokenize_headers')
p('C87','common beginnings and ends of the recipients',
  'With SUMMARIZE_EMAIL_PREFIXES (SUFFIXES) and at least two recipients whose lower-case addresses have a common beginning (end), there is exactly one token, with the number of characters of the longest one times the number of addresses, divided by ten, or "big" above 3 (5); otherwise there is none. The order of the recipients does not matter.',
  'every list of recipients',
  'All lists of addresses.',
  T+':Tokenizer.tokenize_headers')
p('C88','mining the Received headers',
  'With MINE_RECEIVED_HEADERS the tokens of a Received header, in lower case and with single spaces, are: each parenthesised sequence of two or more words, left to right; the parts of the first host name after "from"; the parts of the first bracketed address. Described by positions and characters, without regular expressions. ("[1234]" counts as an address.)',
  'every Received header',
  'All header values.',
  T+':Tokenizer.tokenize_headers', T+':received_host_re', T+':received_ip_re', T+':received_complaints_re', T+':breakdown_host', T+':breakdown_ipaddr')
p('C89','runs of short words',
  'With X_SHORT_RUNS, a text with words of less than three characters has a token with the logarithm of the length of the longest run of them. FALSE: a run at the end of the text is not counted ("V I A G R A" has none); proved: the exact tokens of every text, with and without GENERATE_LONG_SKIPS, in terms of the longest run that is followed by a longer word.',
  'every text',
  'All texts.',
  T+':Tokenizer.tokenize_text')
p('C90','options only add tokens',
  'Turning on an option never makes a message impossible to tokenize, and only adds tokens. FALSE for the first part: with CRACK_IMAGES no message can be tokenized (ImportError), with REPLACE_NONASCII_CHARS no text part and with X_PICK_APART_URLS no URL (TypeError); X_MINE_NNTP_HEADERS needs its header. Proved: exactly which messages can be tokenized with which options; the tokens with default options are among the tokens, in the same order; the order of the groups of tokens.',
  'every message and every combination of the options',
  'Thousands of combinations, all messages.',
  T+':Tokenizer.__call__', T+':Tokenizer.tokenize_headers', T+':Tokenizer.tokenize_body', X+':URLStripper.tokenize')
p('C91','octet streams and images',
  'With CHECK_OCTETS the first five undecoded characters of an octet stream are a token; with IMAGE_SIZE there is one token with the logarithm of the size of all images together. FALSE for octet streams: the token shows the decoded bytes as Python prints them (octet:b\'MZ...\'), so it never is the documented one; proved: the exact tokens of the body, and two octet streams have the same token iff their first five decoded bytes are the same.',
  'every list of parts',
  'All contents.',
  T+':Tokenizer.tokenize_body', T+':octetparts', T+':imageparts')
p('C92','double arithmetic does not spoil the score',
  'With IEEE double arithmetic (rounding, underflow, exp and log accurate to one unit in the last place), after training with at most 10^9 ham and 10^9 spam messages: probability(record) is Robinson\'s value up to a relative error of 1e-13; the score, S and H of spamprob differ from the exact indicator and the exact Fisher combinations of the clue probabilities in the evidence by at most 1e-11; spamprob returns after every valid history. (Not so without a bound: after 2^60 messages it can raise ValueError.)',
  'every platform as accurate as IEEE doubles, every history, every message, both modes',
  'The error of a long computation in doubles for all inputs; 2^60 messages cannot be learned in a test.',
  B+':Classifier.spamprob', B+':Classifier.probability', B+':chi2Q')
p('C93','several processes, one classifier file',
  'Messages that were learned and stored stay learned: as long as nobody unlearns, the number of learned messages in the file never goes down. FALSE: PickleClassifier.store writes the whole state of its object, so a process that was opened before another one stored wipes out what that one stored. Proved, for every interleaving and every timeout of the lock: the file holds exactly the training of its history (the calls the storing object was based on), and each object the counts of its own; without overlaps nothing is lost; sessions one after the other end up as one classifier that made all calls in order.',
  'every interleaving of the calls of any number of processes, with and without timeouts of the lock',
  'All interleavings.',
  S+':PickleClassifier.load', S+':PickleClassifier.store')
p('C94','fancy URL recognition',
  'With FANCY_URL_RECOGNITION a name like www.python.org or ftp.python.org is a URL, with the tokens it has with its protocol in front. FALSE: asking bytes.startswith for a str raises TypeError, so a text with such a name cannot be tokenized. Proved: exactly which texts raise, and what is taken out of the others and with which tokens, described by positions and characters; when the option changes nothing.',
  'every text',
  'All texts.',
  X+':URLStripper.__init__', X+':URLStripper.tokenize', X+':url_fancy_re')

p('C95','reading damaged constant databases',
  'A constant database that was cut short, or whose making was interrupted, is not taken for a whole one: opening or reading it raises. FALSE: a cut inside the key or value of the last record shortens them without a sign, and a database with items but without its header (written last) reads as an empty one. Proved: exactly what reading a file cut after n bytes gives, for every n; which cuts are noticed; that records before the cut are unharmed; that keys(), values() and items() of any file agree; that any file at all raises only ValueError, struct.error or KeyError.',
  'every list of ASCII items, every cut, every file',
  'All cuts of all files; tests read whole files.',
  'sbclassifier/cdb.py:Cdb.__init__', 'sbclassifier/cdb.py:Cdb.__iter__', 'sbclassifier/cdb.py:Cdb.items', 'sbclassifier/cdb.py:Cdb.keys', 'sbclassifier/cdb.py:Cdb.values', 'sbclassifier/cdb.py:cdb_make')

p('C96','learning moves a message towards its class',
  'Learning a message as spam never lowers its own score, and never lowers the probability of its tokens or raises that of any other token (and the same for ham with the directions exchanged). FALSE for its own tokens: the strength given to the unknown word outweighs the evidence when there are more than 11 messages of this class per message of the other; after one ham message "lunch" and eleven spam messages without it, learning "lunch" as spam lowers its score. Proved: for its own tokens up to this bound, which is sharp, and beyond it for tokens never seen in the other class; for all other tokens without any bound; for the score when the same tokens are clues before and after.',
  'every history, every message, both modes, real arithmetic',
  'All histories; it holds in nearly every small example.',
  B+':Classifier.learn', B+':Classifier.probability', B+':Classifier.spamprob')
p('C97','tokens of one class never change the side',
  'A score is above (below) 0.5 exactly if the product of the clue probabilities is above (below) the product of their complements. Hence adding tokens of probability 0.5 or more to a message never takes its score from above 0.5 to 0.5 or less, nor from 0.5 to below, however many clues are pushed out by the limit of 150; the same for tokens of probability 0.5 or less with the sides exchanged. (The score itself can drop when a spam token is added.)',
  'every history, every pair of messages one of which has all tokens of the other, any iteration order, real arithmetic',
  'All messages, in particular those with more than 150 clues.',
  B+':Classifier.spamprob', B+':Classifier._getclues')

p('C98','the name of a bigram stands for its two tokens',
  'Different pairs of tokens have different bigrams, and no bigram is equal to a token, so the record of a bigram counts the messages in which its second token directly follows the first. FALSE in general: tokens with a space ("skip:w 10", "a" and "skip:w", "10 a"), and bytes against their printed form. Proved: for bytes tokens (even with spaces or quotes) and for str tokens without spaces, the names are different from each other and from all tokens, and the record of a bigram after training on lists has exactly the numbers of spam and ham messages with the pair.',
  'all tokens, every list of messages',
  'All pairs of tokens.',
  B+':BIGRAM_FORMAT', B+':Classifier._enhance_wordstream', B+':Classifier.learn')

p('C99','no text part is left out',
  'The tokens of a message are those of its headers and those of the text of every part of type text at any depth of nesting, and of no other part; the type is what stands before the first semicolon of Content-Type, without surrounding whitespace and in lower case, and text/plain if that has not exactly one slash or there is no header (message/rfc822 in a digest). So wrapping a message in others hides no text, nor does a broken type. The same for octet streams and images with their options. (But a message of type multipart without parts, for example without boundary, has no body tokens.)',
  'every tree of parts, every order in which the set of parts is visited',
  'All nestings and headers.',
  T+':textparts', T+':octetparts', T+':imageparts', T+':Tokenizer.tokenize_body', T+':Tokenizer.__call__')

p('C100','the text of a message',
  'as_string() of a parsed message returns its text: only CR LF as line ends; first the headers in their order and an empty line; then the lines of the body, those beginning with "From " quoted exactly if mangle_from_ is set; the text of every part at any depth is contained in it. FALSE in three ways: a text whose Content-Type is message_delivery_status/x (which any sender can write) raises AttributeError; after a CR that stands alone a line beginning with "From " is not quoted; and a message with parts attached and no multipart type loses its headers, and mangle_from_=False is ignored for it.',
  'every message, nesting and pair of arguments',
  'All messages and content types.',
  M+':Message.as_string', M+':force_crlf', M+':from_bytes')

p('C101','own headers leave no trace in the tokens',
  'The headers that add_sb_headers writes (and remove_sb_headers removes) have no effect on the tokens of the message: a message that has been classified and marked is tokenized as it was before, so training on marked mail trains on the same tokens. This holds for all messages, scores, clues and options, even if add_sb_headers raises an exception half way. It is FALSE if a notation is put into Subject or To, and if COUNT_ALL_HEADER_LINES is set, when names of X-Spambayes headers become tokens.',
  'every message, score, list of clues, options of both functions, and every behaviour of the email package on header values',
  'All messages and all options.',
  T+':Tokenizer.tokenize_headers', T+':Tokenizer.__call__', M+':Message.add_sb_headers', M+':Message.remove_sb_headers')

p('C102','training and scoring with messages',
  'Working with messages (learn(tokenizer(m)), unlearn(tokenizer(m)), spamprob(tokenizer(m))): after any session the totals and the count of every word are those of the messages now learned, each counting for exactly its tokens; unlearning a message undoes learning it and the score of a message depends only on the messages learned, even if in the meantime the message got SpamBayes headers or its sets of parts are visited in another order, and also for messages that cannot be tokenized. FALSE with bigrams: the order in which the set of text parts is visited decides which words are trained, so unlearning a message with two texts can leave some of its words behind.',
  'every session, message, order of parts, set order and option without COUNT_ALL_HEADER_LINES',
  'All sessions; the order of a set of objects changes from run to run.',
  T+':Tokenizer.__call__', T+':textparts', B+':Classifier.learn', B+':Classifier.unlearn', B+':Classifier.spamprob')

p('C103','the tokens of a web page',
 'When slurp cannot have the page of a URL it returns one token that says why (url:non_resolving, url:non_html, url:http_N, url:unknown_error). Every later call for this URL gives the same tokens without a use of the network, whatever other URLs were asked for in between. A page that was fetched is kept and gives its tokens. FALSE in two ways: after a HTTP error every later call gives the single characters of the token; and for a page that is fetched the call raises AttributeError (a corpus has no makeMessage) and nothing is kept. Also proved: a page in the cache is shared by URLs that differ only in punctuation, and no token of a page is ever a token of mail, because these are str and those bytes.',
 'all states of the caches, all URLs, all behaviours of the network at each call, all lists of calls in between',
 'A test fixes some URLs and a fake network; the claim is about every order of calls and every answer, and about what the second call gives.',
 'sbclassifier/classifiers/slurping.py:SlurpingClassifier.slurp','sbclassifier/classifiers/slurping.py:SlurpingClassifier.setup')
p('C104','which headers count, and in which order',
  'The tokens of a message depend on its headers only in this way: of Subject, X-Mailer, Message-ID, Content-Type, Content-Disposition and Content-Transfer-Encoding the first value is read; of From, To, Cc, Sender and Reply-To all values (with options also Received, NNTP-Posting-Host and the Habeas headers); of the safe headers only the names count (all names with COUNT_ALL_HEADER_LINES). So a sender cannot change the tokens with any other header, nor with the value of a header that is only counted, nor with a second X-Mailer or Content-Type. The order of headers with different names changes neither whether a message can be tokenized nor its tokens. None of the headers listed is listed in vain.',
  'every list of headers, option, tree of parts, and every behaviour of the email package on header values',
  'All names and values of headers, and all orders.',
  T+':Tokenizer.tokenize_headers', T+':Tokenizer.__call__', T+':SAFE_HEADERS')

p('C105','messages survive a restart',
  'A mail client that learns, unlearns and scores messages, keeps its PickleClassifier in a file and is restarted now and then: at any time totals and word counts are exactly those of the messages it has learned, where store() puts them on record and load() or a restart goes back to the record; a message learned before a restart can be unlearned after it, even if it got SpamBayes headers in between; the score of a message depends only on the messages learned, not on when the client stored or was restarted; store() and a restart change no score; without another store() a restart brings back what was stored, whatever happened in between. A store() that runs into the lock changes nothing; a load() or restart that runs into it starts from no messages (C26).',
  'every sequence of learn, unlearn, score, store, load and restart with or without timeout of the lock, every message, order of parts, set order, option without COUNT_ALL_HEADER_LINES and pickle format that can be read back',
  'All sessions; the state left behind by a failed load (an old cache of probabilities) shows only in later calls.',
  S+':PickleClassifier.load', S+':PickleClassifier.store', T+':Tokenizer.__call__', B+':Classifier.learn', B+':Classifier.unlearn', B+':Classifier.spamprob')

p('C106','unlearning what was never learned',
  'Unlearning a message that is not learned raises ValueError and changes nothing. FALSE: it is refused only if no message of the class is left; otherwise the total goes down, and with it tokens of the message that happen to have a count. After learning "a" twice and unlearning "b" once, a message with "a" cannot be scored any more. Proved, for all histories, proper or not: the totals and token counts (the largest surplus of learned over unlearned messages in a final part of the history); which messages can be scored; for one mistake after a proper history, exactly when all messages can still be scored; and that learning the message again repairs the database exactly if all its tokens had a count.',
  'every history of learn, unlearn and scoring calls, proper or not, with and without bigrams; scores in real arithmetic',
  'All histories; the damage shows up only when a message with a token of another message is scored.',
  B+':Classifier.unlearn', B+':Classifier._remove_msg', B+':Classifier._add_msg', B+':Classifier.probability', B+':Classifier.spamprob')

p('C107','what is counted for a plain word',
  'After any session of learning, unlearning and scoring messages, the record of a word of 3 to 12 bytes without a colon has exactly the numbers of spam and ham messages now learned of which some text part, at any depth, has the word (in any case, between white space), after URLs, style sheets, comments and noframes sections are taken out; only messages that can be tokenized count. Nothing in a header, in a URL or in another part ever counts for such a word, and a text without "<" and URLs has the words that are written in it.',
  'every session, message, nesting of parts, order of parts, word, and every behaviour of the email package on header values; default options, without bigrams',
  'All words and messages: a test that some words are counted does not show that no header or URL is mistaken for them.',
  T+':Tokenizer.__call__', T+':Tokenizer.tokenize_body', T+':Tokenizer.tokenize_headers', T+':Tokenizer.tokenize_text', B+':Classifier.learn', B+':Classifier.unlearn')

p('C108','a text cannot feign the clues of headers',
  'The tokens from:none, to:none, cc:none, sender:none and reply-to:none mean that the message has no such header. FALSE: a text with the word "from:none" has this token although there is a From header. Proved: the message has the token exactly if the header is missing or the token, of at most 12 bytes, is a word of a text; so it holds for reply-to:none, and no text can feign any token of more than 12 bytes that does not begin with skip:, url:, proto:, virus: or control:.',
  'every message that can be tokenized, every nesting of parts, default options',
  'All headers and texts.',
  T+':Tokenizer.tokenize_headers', T+':Tokenizer.tokenize_text', T+':Tokenizer.__call__')

p('C109','what no learned message has does not count',
  'After any session of learning, unlearning and scoring messages, two messages that have the same tokens among those that some message now learned has get the same score and the same evidence, whatever their other tokens; learned messages can be replaced by others with the same tokens. So a message can be padded with any plain words that no learned message shows, and a message with new tokens only scores exactly 0.5.',
  'every session, messages, options (except counting all header lines), order of parts and of sets, and any sound arithmetic; without bigrams',
  'All sessions and all ways of adding and removing words.',
  B+':Classifier.spamprob', B+':Classifier._getclues', B+':Classifier.probability', T+':Tokenizer.__call__')

p('C110','learning everything again',
  'Learning every message k times instead of once leaves each message on its side of 0.5. FALSE: with nine of ten spam and one of ten ham messages with "pills" and another ham message with "lunch", the message "pills lunch" scores above 0.5, and below 0.5 after everything is learned twice. Proved: the probability of each token, with or without bigrams, moves away from 0.5 or stays and never changes its side, each clue stays a clue, and a message stays on its side if its tokens are all on one side.',
  'every history that learns the messages, every k, token and message; exact arithmetic',
  'A statement about all histories and all k.',
  B+':Classifier.probability', B+':Classifier.spamprob', B+':Classifier.learn')

p('C111','the observers of the documentation',
  'A function connected to message_added as the documentation of class Corpus shows prints a line with the message and the corpus for every message added, and adding the message returns. FALSE: a Corpus has no text (NotImplementedError) and a FileCorpus cannot make its own (AttributeError), so nothing is ever printed and every call of add_message or remove_message that is signalled to such a function raises, although the change has been made.',
  'every history of calls, every way of connecting such functions, corpora of both kinds, every message',
  'Tests print nothing; the statement is about all histories and connections.',
  CB+':Corpus.__repr__', CB+':Corpus.add_message', CF+':FileCorpus.__repr__')

p('C112','a trainer trains the messages of its corpora',
  'A message added to a corpus is learned by every trainer that was made for the corpus. FALSE: the signals keep weak references, so a trainer trains only while some variable of the program refers to it; `SpamTrainer(classifier, [corpus])` as a statement of its own trains nothing. Exactly: an observer is called if and only if it is connected and some variable refers to it at that moment, and the classifier has learned every message that was added or removed once for each such trainer.',
  'every program that makes trainers (and other observers), assigns and deletes variables, and adds and removes messages in any order; any number of trainers and corpora in memory',
  'Tests keep their observers in variables or connect functions of the module; the statement is about all programs.',
  TR+':Trainer.__init__', CB+':Corpus.add_message', CB+':Corpus.remove_message')

p('C113','what is known about URLs outlives the process',
  'The answer that a URL has given (url:non_resolving and so on) is stored in the cache files after the message, and is given again by every later object that uses these files, without a use of the network, whatever other messages come between. A damaged file means starting afresh, an exception means no more than that this message has no tokens of its URL. TRUE for one process at a time, started anew any number of times. FALSE for two processes: each writes its own view over the files. FALSE for damaged files: only OSError and ValueError start afresh, an empty file (EOFError) stops every message of every new object for ever. FALSE for exceptions: the first one switches the search off for the life of the object.',
  'all states, all networks at each message, all lock timeouts, all sequences of messages and restarts by any number of processes, all contents of the files',
  'Needs every order of messages, restarts and timeouts, and every damage of a file.',
  SL+':SlurpingClassifier._generate_slurp', SL+':SlurpingClassifier.setup', SL+':SlurpingClassifier._save_caches')

p('C114','what a mail filter writes on a message',
  'A filter removes the SpamBayes headers of a message, scores it and adds the headers with score and evidence. SpamBayes headers that the message comes with, forged or not, have no effect. What is written is determined by the message and the multiset of messages learned: not by the order of training, messages unlearned again, other messages scored, restarts, earlier filtering, visiting orders of parts and sets. Filtering a second time, or after another filter, changes nothing. The last is FALSE when a notation is wanted in a To or Subject that is missing (or that is not text): what was created for it stays, and the second filter adds another.',
  'all messages, all options of tokenizer and add_sb_headers, all classifiers, all histories of training and restarts, all orders',
  'Needs two arbitrary histories and arbitrary headers at once.',
  M+':Message.remove_sb_headers', M+':Message.add_sb_headers', B+':Classifier.spamprob', T+':Tokenizer.__call__')

p('C115','the URL to be followed is noted',
  'SlurpingURLStripper notes the http URL of a text in slurp_wordstream, for _generate_slurp to follow, and forgets the URL of an earlier text. FALSE: the assignments make local variables, and proto is bytes, so that proto != "http" always holds; slurp_wordstream remains None for ever, whatever texts are analyzed. Text and tokens are exactly those of URLStripper.',
  'all texts, all sequences of texts, all variants of URLStripper',
  'All texts.',
  SL+':SlurpingURLStripper.analyze', SL+':SlurpingURLStripper.tokenize')

p('C116','a message that is written can be read again',
  'The text that as_string makes of a message, read by from_string, has the same headers with the same names in the same order; every value has the same words in the same order, and a value that fits on its line is the same; the body is the same. FALSE: a value with a vertical tab, a form feed, FS, GS or RS makes as_string raise, or, in versions of Python that do not check headers, every header after it is read as part of the body. Without these characters it holds for all texts, in particular for the headers that add_sb_headers writes: the classification that a reader sees is the one that was decided. In no case does the reader see a header name that was not written (no header can be forged by line breaks in a value).',
  'all ASCII header values, all numbers and lengths of headers, all bodies the parser makes, both settings of unixfrom and mangle_from_, versions of Python with and without the check of headers',
  'All values and lengths: where lines are folded depends on the position of every blank, and tests use short headers.',
  M+':Message.as_string', M+':Message.add_sb_headers', M+':from_string')

p('C117','a reader sees the exception header',
  'The email parser, reading the text that insert_exception_header returns for a message with a header block and a body, sees the headers of the message, then X-Spambayes-Exception with the whole traceback (trimmed, a blank before every line but the first), then X-Spambayes-MailId with the id if one is given, and the same body and From line; it sees no other header. FALSE: a traceback with a carriage return that no line feed follows makes it see headers that the traceback makes up. Of what is inserted into a message without a blank line nothing is seen as a header.',
  'every header block (any number of headers, folded or not, line ends LF or CR LF, with or without From line), body, traceback and one-line id',
  'All texts: whether the inserted lines are read as headers depends on every line before them.',
  M+':insert_exception_header', M+':from_string')

p('C118','writing a message does not change its tokens',
  'The tokens of a text message are the same after it was written with as_string and read again (with from_string), so that it is scored and can be untrained as before. FALSE: with the default mangle_from_ a body line that begins with "From " gets a ">" (the token "from" becomes ">from"), a subject that is folded gets a token with the line end in it, and so does a "<script" that is broken over two lines. Where it holds: headers of one line each, an ASCII body without such a tag and without lone CR, and no line that is quoted.',
  'every such message, header list, body, way to decode headers (standard library) and setting of unixfrom and mangle_from_',
  'All texts: URLs, words and line ends may be anywhere in the body.',
  M+':Message.as_string', T+':Tokenizer.tokenize_body', T+':Tokenizer.tokenize_headers')

p('C119','raw 8-bit characters in headers',
  'A message with a byte that is not ASCII in one of its headers (read with from_bytes) can be tokenized, trained and scored like any other. FALSE: if the byte is in a To or Cc header, in the first X-Mailer or in the first Message-Id header, the tokenizer raises with every setting of the options; training raises too, but has counted a message without words. In headers that are not read the value makes no difference.',
  'every message with such a header, every setting of the options, classifier state and way to decode headers (standard library)',
  'All messages and options; that a total was changed is not seen in the exception.',
  T+':Tokenizer.tokenize_headers', B+':Classifier.learn', M+':from_bytes')

p('C120','training with the copy that was delivered',
  'A text message is read, classified, given its headers by add_sb_headers and written by as_string. Whoever reads that text (from_string) and trains or scores with it does so with the tokens of the message that came, finds the classification in X-Spambayes-Classification and the same body lines. FALSE in general: with the default mangle_from_ a body line that begins with "From " gets another word. Proved for every message of a text type in which this does not happen and no header the tokenizer reads has to be folded, whatever the score, clues, id and the options of add_sb_headers other than notations, and even if add_sb_headers raised.',
  'every text of a message, score, list of clues, formatting of numbers, setting of the options, Python version (header checks)',
  'All messages, clues and options; the evidence header is wrapped and folded differently for each list of clues.',
  M+':Message.add_sb_headers', M+':Message.as_string', M+':from_string', T+':Tokenizer.__call__')

p('C121','the clues of an address tell it apart',
  'Two addresses with the same clues of gen_dotted_quad_clues are the same address. True for IPv4. FALSE for IPv6, which the function accepts and getaddrinfo returns: the lengths 8, 16, 24 and 32 are used for addresses of 128 bits, and the clues are the same if and only if the first 32 bits are; proved with the exact texts. No clue of an IPv4 address is a clue of an IPv6 address.',
  'every pair of IPv4 or IPv6 addresses and prefix string',
  '2^256 pairs of addresses; the tests have one IPv4 address.',
  IP+':gen_dotted_quad_clues', IP+':subnets')
p('C122','a message with parts that is written can be read again',
  'The text that as_string makes of a message with parts, nested to any depth, read by from_string, gives the same message: the same number of parts in the same order and nesting, each with the headers it had (same names, same words), the same preamble and epilogue, and the text it had but for the line ends (and for the ">" that mangle_from_ puts before "From "). FALSE: a multipart part whose boundary is not found in it gets one more empty line each time the message is written and read. Where it holds: every multipart has parts, none of which contains a line with the boundary, and header lines are continued properly. Whatever was itself read from a text (ASCII, without VT, FF, FS, GS, RS) meets this, whatever its texts contain, if every multipart has parts and no boundary has a colon or is an outer boundary without its last two hyphens.',
  'every tree of parts of any depth and number, all texts, preambles, epilogues and boundaries, both settings of mangle_from_, versions of Python with and without the check of headers',
  'Trees of unbounded depth: whether a part is cut in the right place depends on every line of every part and on the boundaries of all messages around it.',
  M+':Message.as_string', M+':from_string', M+':from_bytes')
p('C123','a message with parts has the same clues after it was written and read',
  'Writing a message with parts (as_string) and reading it back (from_string), as is done when it is filtered and delivered and later trained on, does not change its tokens: every part is seen again, with the same type, in the same order, and its text has the same words. FALSE: a line of a part that begins with "From " is quoted when mangle_from_ is on, and then "from" becomes ">from". Where it holds: the tree is sound (C122), the headers that the tokenizer reads fit on one line, and the decoded text of each text part is the same or differs in line ends only, with no "<script" broken over two lines.',
  'every tree of parts of any depth and number, every order in which the set of text parts is visited, every decoder of transfer encodings, both settings of mangle_from_',
  'The text parts are found by walking a tree of unbounded depth and visited in the order of a set; every line of every part can change the tokens.',
  T+':Tokenizer.__call__', T+':Tokenizer.tokenize_body', T+':textparts', M+':Message.as_string', M+':from_string')
p('C124','a message is cut at its boundary lines and nowhere else',
  'A multipart message read by from_string has as its parts the texts between the lines that consist of two hyphens and the boundary (blanks may follow), in their order, each with the headers at its beginning and without the newline before the next boundary line; what comes before the first of these lines and after the line with two more hyphens is in no part, and the tokens do not depend on it. A boundary line directly after another one does not begin a part. If the line with two more hyphens comes first, the message has no parts and what follows is lost. A message that is neither multipart nor a message in a message has everything after its headers as its body. If no empty line follows the headers, the first line that cannot be a header is the first line of the body; a line that begins with "From " and is the last of several header lines is so too.',
  'every message text with any number of header lines, lines before the parts, parts, lines of parts and text after them; every boundary',
  'The lines of parts can be anything, also lines that almost look like boundaries; tests have a few messages.',
  M+':from_string', M+':from_bytes', T+':Tokenizer.__call__', T+':textparts')
p('C125','a signed message is written with the lines that were read',
  'as_string of a multipart/signed message read by from_string gives the lines that were read, so that the signature still fits the part it is for; no header of the signed part is folded, however long it is. The same holds for other multipart messages whose header lines have at most 78 characters.',
  'every message text with any header lines, parts, lines of parts, and lines before and after them; with and without mangle_from_',
  'A signature is for every character of a part; whether a character is changed depends on headers and lines that tests do not have.',
  M+':from_string', M+':Message.as_string')
p('C126','whether lines end with LF or CR LF makes no difference to what is written',
  'Two message texts with the same lines, whose lines end with LF or CR LF in any mixture, give the same text when they are read by from_string and written by as_string; also the same exception, if there is one. This holds for messages with parts of any depth, also if boundaries are missing.',
  'every pair of texts with the same lines; every depth of parts; with and without mangle_from_',
  'Line ends are found in headers, between headers and body, at boundaries and in texts, and each of them can be either of two; tests use one kind of line end.',
  M+':from_string', M+':Message.as_string', M+':force_crlf')
p('C127','a text that was written is written again as it is',
  'The text made by as_string from a message read by from_string is, when it is read and written again, the same text: programs that hand a message on do not change it any further.',
  'every message text; with and without mangle_from_',
  'The second reading starts from folded headers and CR LF line ends, for any headers and parts; tests do not write a message twice.',
  M+':from_string', M+':Message.as_string')
p('C128','whether lines end with LF or CR LF makes no difference to the clues',
  'A message text whose lines end with LF has the same tokens as the text with the same lines of which some or all end with CR LF, when both are read by from_string: a message is scored alike wherever it comes from. This holds for messages with parts of any depth.',
  'every message text that can be tokenized; every mixture of line ends; every order of the set of text parts; default options',
  'Line ends are found in headers, at boundaries and in texts, and the tokenizer looks at texts of any number of parts; tests have messages with one kind of line end.',
  M+':from_string', T+':Tokenizer.__call__', T+':textparts', T+':Tokenizer.tokenize_headers')
with open(os.path.join(os.path.dirname(os.path.abspath(__file__)), '..', 'properties.jsonl'), 'w') as f:
    for d in P: f.write(json.dumps(d) + '\n')
print(len(P))
