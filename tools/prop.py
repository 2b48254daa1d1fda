"""usage: from prop import up, save -- edit properties.jsonl"""
import json
P='/verif/properties.jsonl'
d={json.loads(l)['id']:json.loads(l) for l in open(P)}
def up(i,title,st,q,w,a): d[i]=dict(id=i,title=title,statement=st,quantifier=q,why_tests_cant=w,anchors=a)
def save():
    with open(P,'w') as f:
        for k in sorted(d,key=lambda s:int(s[1:])): f.write(json.dumps(d[k])+'\n')
