"""append a property line: addprop.py ID TITLE STATEMENT QUANTIFIER WHY ANCHORS(comma separated)"""
import json,sys
i,t,s,q,w,a=sys.argv[1:7]
p='/verif/properties.jsonl'
L=[json.loads(l) for l in open(p)]
assert all(x['id']!=i for x in L)
open(p,'a').write(json.dumps(dict(id=i,title=t,statement=s,quantifier=q,why_tests_cant=w,anchors=a.split(',')))+'\n')
